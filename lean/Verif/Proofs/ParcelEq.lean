import Verif.Props.Ecc
set_option autoImplicit false
/-
The parcels and reply parts written out.
-/
namespace Resmix.Rrpc
open Resmix.Ecc

def parcelFor (C : RS) (method : Str) (note : ExchangeNote) (args : Bytes) (i : Nat) : Parcel :=
  { messageLength := le32 args.length, payload := col (coded C args) i, method := method, relayIndex := (i : Int), note := note, signature := none }

def partFor (C : RS) (reply : Bytes) (i : Nat) : RrpcResponse :=
  { messageLength := le32 reply.length, payload := col (coded C reply) i, relayIndex := (i : Int) }

theorem authEncode_iff (C : RS) (data : Bytes) (res : Go (List (List Bytes))) : AuthEncode C false data res ↔ res = .ok (coded C data) := by
  constructor
  · rintro (⟨h, -⟩ | ⟨o, ho, rfl⟩)
    · simp at h
    · exact authEncodeIn_eq C data o ho
  · rintro rfl
    exact Or.inr ⟨_, List.Perm.refl _, (authEncodeIn_eq C data _ (List.Perm.refl _)).symm⟩

theorem robustParcels_eq {net : Network} {C : RS} (hC : NewCoordinator net (.ok C)) (method : Str) (note : ExchangeNote) (args : Bytes) :
    robustParcels net method note args (coded C args) = .ok ((List.range net.serverAddresses.length).map (parcelFor C method note args)) := by
  obtain ⟨hk, hm, hn⟩ := coordinator_code hC
  obtain ⟨hl, hrows⟩ := coded_rows C args
  apply Shuffle.mapM_ok
  intro i hi
  unfold mkParcel
  rw [eccPayload_eq _ _ (fun row hrow => by rw [(hrows row hrow).1, hn]; exact List.mem_range.1 hi)]
  rfl

theorem requestIntoRobust_iff {net : Network} {C : RS} (hC : NewCoordinator net (.ok C)) (method : Str) (note : ExchangeNote) (args : Bytes)
    (hlen : args.length < 2 ^ 32) (res : Go (List Parcel)) :
    RequestIntoRobust C false net method note args res ↔ res = .ok ((List.range net.serverAddresses.length).map (parcelFor C method note args)) := by
  unfold RequestIntoRobust
  rw [if_neg (by omega)]
  constructor
  · rintro ⟨enc, he, rfl⟩
    rw [(authEncode_iff C args enc).1 he]
    exact robustParcels_eq hC method note args
  · rintro rfl
    exact ⟨_, (authEncode_iff C args _).2 rfl, (robustParcels_eq hC method note args).symm⟩

theorem replyParts_iff {net : Network} {C : RS} (hC : NewCoordinator net (.ok C)) (reply : Bytes) (res : Go (List RrpcResponse)) :
    ReplyParts C false net reply res ↔ res = .ok ((List.range net.serverAddresses.length).map (partFor C reply)) := by
  obtain ⟨hk, hm, hn⟩ := coordinator_code hC
  obtain ⟨hl, hrows⟩ := coded_rows C reply
  have hpar : (List.range net.serverAddresses.length).mapM (mkReply (le32 reply.length) (coded C reply)) =
      .ok ((List.range net.serverAddresses.length).map (partFor C reply)) := by
    apply Shuffle.mapM_ok
    intro i hi
    unfold mkReply
    rw [eccPayload_eq _ _ (fun row hrow => by rw [(hrows row hrow).1, hn]; exact List.mem_range.1 hi)]
    rfl
  unfold ReplyParts
  constructor
  · rintro ⟨enc, he, rfl⟩
    rw [(authEncode_iff C reply enc).1 he]; exact hpar
  · rintro rfl
    exact ⟨_, (authEncode_iff C reply _).2 rfl, hpar.symm⟩

/-- Replies that differ in their first byte only have the same parts at all data positions but the first. -/
theorem partFor_congr (C : RS) (x y : UInt8) (rest : Bytes) (i : Nat) (h1 : 1 ≤ i) (hk : i < C.k) : partFor C (x :: rest) i = partFor C (y :: rest) i := by
  unfold partFor
  have hc : col (coded C (x :: rest)) i = col (coded C (y :: rest)) i := by
    unfold col
    have hl : ∀ z : UInt8, (coded C (z :: rest)).length = numChunks := fun z => (coded_rows C _).1
    rw [hl, hl]
    apply List.map_congr_left
    intro c hc
    have hc : c < numChunks := List.mem_range.1 hc
    have hget : ∀ z : UInt8, (coded C (z :: rest)).getD c [] = dataShards C (chunkOf ((z :: rest) ++ List.replicate numChunks 0) c)
        ++ C.parity (dataShards C (chunkOf ((z :: rest) ++ List.replicate numChunks 0) c)) := by
      intro z; simp [coded, List.getD_eq_getElem?_getD, hc]
    have hdata : ∀ d : Bytes, (dataShards C d ++ C.parity (dataShards C d)).getD i [] = (dataShards C d).getD i [] := by
      intro d
      have := (dataShards_shape C d).1
      simp only [List.getD_eq_getElem?_getD]
      rw [List.getElem?_append_left (by omega)]
    rw [hget, hget, hdata, hdata]
    have hsame : ∀ d d' : Bytes, d.length = d'.length → d.drop 1 = d'.drop 1 → (dataShards C d).getD i [] = (dataShards C d').getD i [] := by
      intro d d' hl hd
      simp only [dataShards, List.getD_eq_getElem?_getD, List.getElem?_map, List.getElem?_range hk, Option.map_some, Option.getD_some, hl]
      by_cases h0 : d' = []
      · subst h0
        have : d = [] := List.length_eq_zero_iff.1 (by simpa using hl)
        subst this; rfl
      have hp := per_pos C d' h0
      set per := (d'.length + C.k - 1) / C.k
      congr 1
      have hd1 : 1 ≤ d'.length := List.length_pos_iff.2 h0
      have hi1 : 1 ≤ i * per := Nat.mul_pos h1 hp
      have hdd : ∀ L : Bytes, L.drop (i * per) = (L.drop 1).drop (i * per - 1) := fun L => by rw [List.drop_drop]; congr 1; omega
      have ha : ∀ L R : Bytes, 1 ≤ L.length → (L ++ R).drop 1 = L.drop 1 ++ R := fun L R h => List.drop_append_of_le_length h
      rw [hdd, hdd (d' ++ _), ha _ _ (by omega), ha _ _ hd1, hd]
    apply hsame
    · unfold chunkOf
      simp only [List.length_append, List.length_cons]
      split <;> simp
    · unfold chunkOf
      simp only [List.length_append, List.length_cons, List.cons_append]
      split
      · rw [List.drop_drop, List.drop_drop]
        rw [List.drop_succ_cons, List.drop_succ_cons]
      · rw [List.drop_take, List.drop_take, List.drop_drop, List.drop_drop, List.drop_succ_cons, List.drop_succ_cons]
  rw [hc]
  simp
end Resmix.Rrpc
