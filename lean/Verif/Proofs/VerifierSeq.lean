import Verif.Proofs.VerifierTerm
import Verif.Props.Sign
import Mathlib.Logic.Relation
import Mathlib.Data.Countable.Basic
import Mathlib.Logic.Encodable.Basic
import Mathlib.Logic.Equiv.List
set_option autoImplicit false
namespace Resmix.Rrpc
open Resmix.Merkle

/-! ### The sequential description agrees with the concurrent one -/

/-- No call is in progress and the verifier remembers exactly the roots in `cache`. -/
structure Quiet (s : VState) (cache : Cache) : Prop where
  alive : s.crashed = false
  roots : ∀ d : Digest, (∃ t, s.map.lookup d = some t) ↔ d ∈ cache
  good : ∀ (d : Digest) (t : Nat), s.map.lookup d = some t → ∃ task, s.tasks[t]? = some task ∧ task.taken = true ∧ task.result = some (.ok ())

theorem append_set {α : Type} (l : List α) (x y : α) : (l ++ [x]).set l.length y = l ++ [y] := by
  rw [List.set_append_right _ _ (Nat.le_refl _), Nat.sub_self]; rfl

theorem append_get {α : Type} (l : List α) (x : α) : (l ++ [x])[l.length]? = some x := by
  rw [List.getElem?_append_right (Nat.le_refl _), Nat.sub_self]; rfl

open Relation in
theorem sequential_run (S : SigScheme) (H : HashFn) (s : VState) (cache : Cache) (q : Quiet s cache) (c : VCall)
    (hp : (verifyCall S H cache c.pk c.cert c.enc).1 ≠ .error .panic) :
    ∃ s', ReflTransGen (VStep S H) s s' ∧ Quiet s' (verifyCall S H cache c.pk c.cert c.enc).2 ∧
      s'.calls = s.calls ++ [(c, .done (verifyCall S H cache c.pk c.cert c.enc).1)] := by
  set n := s.calls.length with hn
  have st0 : VStep S H s { s with calls := s.calls ++ [(c, .start)] } := .call s c q.alive
  match hcert : c.cert with
  | none =>
    refine ⟨{ s with calls := s.calls ++ [(c, .done (.error emptyCertificate))] }, ?_, ?_, ?_⟩
    · refine .tail (.single st0) ?_
      have := VWork.noCert (S := S) (H := H) { s with calls := s.calls ++ [(c, VPc.start)] } n c q.alive (append_get _ _) hcert
      simp only [hn, append_set] at this
      exact .work _ _ this
    · exact ⟨q.alive, q.roots, q.good⟩
    · rfl
  | some cert =>
    rw [hcert] at hp
    match ha : authPath H cert c.enc with
    | .error e =>
      refine ⟨{ s with calls := s.calls ++ [(c, .done (.error e))] }, ?_, ?_, ?_⟩
      · refine .tail (.single st0) ?_
        have := VWork.authFail (S := S) (H := H) { s with calls := s.calls ++ [(c, VPc.start)] } n c cert e q.alive (append_get _ _) hcert ha
        simp only [hn, append_set] at this
        exact .work _ _ this
      · simp only [verifyCall, ha]; exact ⟨q.alive, q.roots, q.good⟩
      · simp only [verifyCall, ha]
    | .ok () =>
      have st1 : VStep S H { s with calls := s.calls ++ [(c, .start)] } { s with calls := s.calls ++ [(c, .authed)] } := by
        have := VWork.auth (S := S) (H := H) { s with calls := s.calls ++ [(c, VPc.start)] } n c cert q.alive (append_get _ _) hcert ha
        simp only [hn, append_set] at this
        exact .work _ _ this
      by_cases hin : fitDigest cert.root ∈ cache
      · obtain ⟨t, ht⟩ := (q.roots _).2 hin
        obtain ⟨task, h1, h2, h3⟩ := q.good _ _ ht
        refine ⟨{ s with calls := s.calls ++ [(c, .done (.ok ()))] }, ?_, ?_, ?_⟩
        · refine .tail (.tail (.tail (.tail (.single st0) st1) (c := { s with calls := s.calls ++ [(c, .loaded t)] }) ?_) (c := { s with calls := s.calls ++ [(c, .waiting t false)] }) ?_) ?_
          · have := VWork.load (S := S) (H := H) { s with calls := s.calls ++ [(c, VPc.authed)] } n c cert t q.alive (append_get _ _) hcert ht
            simp only [hn, append_set] at this
            exact .work _ _ this
          · have := VWork.join (S := S) (H := H) { s with calls := s.calls ++ [(c, VPc.loaded t)] } n c t task q.alive (append_get _ _) h1 h2
            simp only [hn, append_set] at this
            exact .work _ _ this
          · have := VWork.accept (S := S) (H := H) { s with calls := s.calls ++ [(c, VPc.waiting t false)] } n c t false task q.alive (append_get _ _) h1 h3
            simp only [hn, append_set] at this
            exact .work _ _ this
        · simp only [verifyCall, ha, if_pos hin]; exact ⟨q.alive, q.roots, q.good⟩
        · simp only [verifyCall, ha, if_pos hin]
      · have hl : s.map.lookup (fitDigest cert.root) = none := by
          match h : s.map.lookup (fitDigest cert.root) with
          | none => rfl
          | some t => exact absurd ((q.roots _).1 ⟨t, h⟩) hin
        set m := s.map.insert (fitDigest cert.root) s.tasks.length with hm
        let tk : Bool → Option (Go Unit) → VTask := fun b r => { pk := c.pk, cert := cert, taken := b, result := r }
        have st2 : VStep S H { s with calls := s.calls ++ [(c, .authed)] }
            { s with map := m, tasks := s.tasks ++ [tk false none], calls := s.calls ++ [(c, .loaded s.tasks.length)] } := by
          have := VWork.store (S := S) (H := H) { s with calls := s.calls ++ [(c, VPc.authed)] } n c cert q.alive (append_get _ _) hcert hl
          simp only [hn, append_set] at this
          exact .work _ _ this
        have st3 : VStep S H { s with map := m, tasks := s.tasks ++ [tk false none], calls := s.calls ++ [(c, .loaded s.tasks.length)] }
            { s with map := m, tasks := s.tasks ++ [tk true none], calls := s.calls ++ [(c, .waiting s.tasks.length true)] } := by
          have := VWork.take (S := S) (H := H)
            { s with map := m, tasks := s.tasks ++ [tk false none], calls := s.calls ++ [(c, VPc.loaded s.tasks.length)] } n c s.tasks.length (tk false none)
            q.alive (append_get _ _) (append_get _ _) rfl
          simp only [hn, append_set] at this
          exact .work _ _ this
        have hsr : sigResult S c.pk cert ≠ .error .panic := by
          intro h
          apply hp
          simp only [verifyCall, ha, if_neg hin, h]
        have st4 : VStep S H { s with map := m, tasks := s.tasks ++ [tk true none], calls := s.calls ++ [(c, .waiting s.tasks.length true)] }
            { s with map := m, tasks := s.tasks ++ [tk true (some (sigResult S c.pk cert))], calls := s.calls ++ [(c, .waiting s.tasks.length true)] } := by
          have := VWork.work (S := S) (H := H)
            { s with map := m, tasks := s.tasks ++ [tk true none], calls := s.calls ++ [(c, VPc.waiting s.tasks.length true)] } s.tasks.length (tk true none)
            q.alive (append_get _ _) rfl rfl hsr
          simp only [append_set] at this
          exact .work _ _ this
        have run : ReflTransGen (VStep S H) s
            { s with map := m, tasks := s.tasks ++ [tk true (some (sigResult S c.pk cert))], calls := s.calls ++ [(c, .waiting s.tasks.length true)] } :=
          .tail (.tail (.tail (.tail (.single st0) st1) st2) st3) st4
        match hr : sigResult S c.pk cert with
        | .ok () =>
          refine ⟨{ s with map := m, tasks := s.tasks ++ [tk true (some (.ok ()))], calls := s.calls ++ [(c, .done (.ok ()))] }, ?_, ?_, ?_⟩
          · rw [hr] at run
            refine .tail run ?_
            have := VWork.accept (S := S) (H := H)
              { s with map := m, tasks := s.tasks ++ [tk true (some (.ok ()))], calls := s.calls ++ [(c, VPc.waiting s.tasks.length true)] }
              n c s.tasks.length true (tk true (some (.ok ()))) q.alive (append_get _ _) (append_get _ _) rfl
            simp only [hn, append_set] at this
            exact .work _ _ this
          · simp only [verifyCall, ha, if_neg hin, hr]
            refine ⟨q.alive, fun d => ?_, fun d t hd => ?_⟩
            · simp only [hm, GoMap.lookup_insert, List.mem_cons]
              constructor
              · rintro ⟨t, h⟩
                split at h
                · next hd => exact Or.inl hd
                · exact Or.inr ((q.roots d).1 ⟨t, h⟩)
              · rintro (h | h)
                · subst h; exact ⟨s.tasks.length, by simp⟩
                · obtain ⟨t, ht⟩ := (q.roots d).2 h
                  by_cases hd : d = fitDigest cert.root
                  · subst hd; exact absurd h hin
                  · exact ⟨t, by rw [if_neg hd]; exact ht⟩
            · simp only [hm, GoMap.lookup_insert] at hd
              split at hd
              · injection hd with hd; subst hd
                exact ⟨_, append_get _ _, rfl, rfl⟩
              · obtain ⟨task, h1, h2⟩ := q.good d t hd
                exact ⟨task, by simp only; rw [List.getElem?_append_left (List.getElem?_eq_some_iff.1 h1).1]; exact h1, h2⟩
          · simp only [verifyCall, ha, if_neg hin, hr]
        | .error e =>
          refine ⟨{ s with map := m.erase (fitDigest cert.root), tasks := s.tasks ++ [tk true (some (.error e))], calls := s.calls ++ [(c, .done (.error e))] }, ?_, ?_, ?_⟩
          · rw [hr] at run
            refine .tail run ?_
            have := VWork.reject (S := S) (H := H)
              { s with map := m, tasks := s.tasks ++ [tk true (some (.error e))], calls := s.calls ++ [(c, VPc.waiting s.tasks.length true)] }
              n c cert s.tasks.length true (tk true (some (.error e))) e q.alive (append_get _ _) hcert (append_get _ _) rfl (Or.inl rfl)
            simp only [hn, append_set] at this
            exact .work _ _ this
          · simp only [verifyCall, ha, if_neg hin, hr]
            have hlk : ∀ d, (m.erase (fitDigest cert.root)).lookup d = s.map.lookup d := by
              intro d
              by_cases hd : d = fitDigest cert.root
              · subst hd; rw [GoMap.lookup_erase_self, hl]
              · rw [GoMap.lookup_erase_ne _ hd, hm, GoMap.lookup_insert_ne _ _ hd]
            refine ⟨q.alive, fun d => ?_, fun d t hd => ?_⟩
            · simp only [hlk]; exact q.roots d
            · simp only [hlk] at hd
              obtain ⟨task, h1, h2⟩ := q.good d t hd
              exact ⟨task, by simp only; rw [List.getElem?_append_left (List.getElem?_eq_some_iff.1 h1).1]; exact h1, h2⟩
          · simp only [verifyCall, ha, if_neg hin, hr]

/-! ### Example instances -/

/-- A certificate for a tree with a single leaf. -/
def leafCert (H : HashFn) (enc sig : Bytes) : MerkleCertificate := { root := (H enc).1, path := [], index := 0, signature := sig }

theorem leafCert_root (H : HashFn) (enc sig : Bytes) : fitDigest (leafCert H enc sig).root = H enc := fitDigest_val _

theorem leafCert_auth (H : HashFn) (enc sig : Bytes) : authPath H (leafCert H enc sig) enc = .ok () := by
  unfold authPath
  rw [leafCert_root]
  simp only [leafCert, List.map_nil]
  rw [verify_single]
  exact ⟨by simp, by simp, rfl⟩

/-- Keys are their own public keys and a signature is key and message: a scheme that is correct (and useless). -/
def toySig : SigScheme where
  Sk := Digest
  pub := Subtype.val
  pub_len := Subtype.property
  sign := fun sk d => sk.1 ++ d.1
  valid := fun pk d s => decide (s = pk ++ d.1)
  correct := by simp

/-- A hash function: the first 32 bytes. -/
def toyHash : HashFn := fitDigest

instance : Countable MerkleCertificate := by
  refine Function.Injective.countable (f := fun c : MerkleCertificate => (c.root.map UInt8.toNat, c.path.map (List.map UInt8.toNat), c.index, c.signature.map UInt8.toNat)) ?_
  have inj : Function.Injective UInt8.toNat := fun a b h => UInt8.toNat.inj h
  rintro ⟨a, b, c, d⟩ ⟨a', b', c', d'⟩ h
  simp only [Prod.mk.injEq] at h
  obtain ⟨h1, h2, h3, h4⟩ := h
  rw [List.map_injective_iff.2 inj h1, List.map_injective_iff.2 (List.map_injective_iff.2 inj) h2, h3, List.map_injective_iff.2 inj h4]

instance : Countable ExchangeNote := by
  refine Function.Injective.countable (f := fun c : ExchangeNote => (c.senderID.map UInt8.toNat, c.receiverID.map UInt8.toNat, c.senderMerkleProof,
    c.receiverMerkleProof, c.calluuid.map UInt8.toNat)) ?_
  have inj : Function.Injective UInt8.toNat := fun a b h => UInt8.toNat.inj h
  rintro ⟨a, b, c, d, e⟩ ⟨a', b', c', d', e'⟩ h
  simp only [Prod.mk.injEq] at h
  obtain ⟨h1, h2, h3, h4, h5⟩ := h
  rw [List.map_injective_iff.2 inj h1, List.map_injective_iff.2 inj h2, h3, h4, List.map_injective_iff.2 inj h5]

instance : Countable Parcel := by
  refine Function.Injective.countable (f := fun c : Parcel => (c.messageLength.map UInt8.toNat, c.payload.map (List.map UInt8.toNat), c.method.map UInt8.toNat,
    c.relayIndex, c.note, c.signature)) ?_
  have inj : Function.Injective UInt8.toNat := fun a b h => UInt8.toNat.inj h
  rintro ⟨a, b, c, d, e, f⟩ ⟨a', b', c', d', e', f'⟩ h
  simp only [Prod.mk.injEq] at h
  obtain ⟨h1, h2, h3, h4, h5, h6⟩ := h
  rw [List.map_injective_iff.2 inj h1, List.map_injective_iff.2 (List.map_injective_iff.2 inj) h2, List.map_injective_iff.2 inj h3, h4, h5, h6]

/-- Some injective encoding of notes and parcels; all encodings are longer than 64 bytes. -/
noncomputable def toyCodec : Codec where
  note := fun n => 0 :: List.replicate (64 + (exists_injective_nat ExchangeNote).choose n) 0
  parcel := fun p => 1 :: List.replicate (64 + (exists_injective_nat Parcel).choose p) 0
  note_inj := by
    intro a b h
    have h2 := congrArg List.length h
    simp only [List.length_cons, List.length_replicate] at h2
    exact (exists_injective_nat ExchangeNote).choose_spec (by omega)
  parcel_inj := by
    intro a b h
    have h2 := congrArg List.length h
    simp only [List.length_cons, List.length_replicate] at h2
    exact (exists_injective_nat Parcel).choose_spec (by omega)
  disjoint := by intro a b h; simp at h

end Resmix.Rrpc
