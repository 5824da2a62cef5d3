import Verif.Proofs.CallB
import Verif.Spec.CallSystem
set_option autoImplicit false
/-
What a task sends, and what a call makes of it.
-/
namespace Resmix.Rrpc
open Resmix.Ecc CallSystem
variable {μ : Type}

/-- The responses of a task whose parcels can be put together to `args`. -/
theorem task_resps (S : SigScheme) (H : Merkle.HashFn) (cod : Codec) (sk : S.Sk) (net : Network) (C : RS) (hC : NewCoordinator net (.ok C))
    (hnet : 2 * net.serverAddresses.length ≤ 2 ^ 64) (t : CTask μ) (args : Bytes)
    (hrec : ∀ res, ReconstructParcels C false t.parcels res ↔ res = .ok args) (hnote : t.savedNote.receiverMerkleProof = none)
    (h : Behaviour μ) (hp : h.Proper) :
    ∃ resps, (∀ res, TaskOutput S H cod sk C false net h [] t res ↔ res = .ok resps) ∧ resps.length = net.serverAddresses.length ∧
      (∀ c ∈ resps, ∃ x, c.note = some x ∧ x.calluuid = t.savedNote.calluuid ∧ ∀ cache : Cache, (verifyReceiverNote S H cod cache (S.pub sk) x).1 = .ok ()) ∧
      match h t.method t.savedNote.calluuid args with
      | .error e => ∀ c ∈ resps, c.rpcError = some (errToRpcErr e)
      | .ok b => (∀ c ∈ resps, c.rpcError = none) ∧ ∃ parts, (∀ res, ReplyParts C false net b res ↔ res = .ok parts) ∧ resps.map (·.response) = parts.map some := by
  obtain ⟨hk, hm', hkm⟩ := coordinator_code hC
  have hkpos := C.kpos
  have hnpos : 0 < net.serverAddresses.length := by omega
  have hproper := hp t.method t.savedNote.calluuid args
  -- the responses before signing
  have hmain : ∃ rs : Responses, (∀ rr, RunTask C false net (S.pub sk) h [] t rr ↔ rr = .ok rs) ∧ rs.1.length = net.serverAddresses.length ∧
      (∀ r ∈ rs.1, r.note = some t.savedNote) ∧
      match h t.method t.savedNote.calluuid args with
      | .error e => ∀ c ∈ rs.1, c.rpcError = some (errToRpcErr e)
      | .ok b => (∀ c ∈ rs.1, c.rpcError = none) ∧ ∃ parts, (∀ res, ReplyParts C false net b res ↔ res = .ok parts) ∧ rs.1.map (·.response) = parts.map some := by
    cases hh : h t.method t.savedNote.calluuid args with
    | error e =>
      refine ⟨errorResponses net (S.pub sk) t.savedNote (errToRpcErr e), ?_, by simp [errorResponses], ?_, ?_⟩
      · intro rr
        unfold RunTask
        constructor
        · rintro ⟨pl, a1, a2⟩
          rw [(hrec pl).1 a1] at a2
          simpa only [hh] using a2
        · rintro rfl
          exact ⟨.ok args, (hrec _).2 rfl, by simp only [hh]⟩
      · intro r hr
        simp only [errorResponses, List.mem_map] at hr
        obtain ⟨_, -, rfl⟩ := hr
        simp only [Option.some.injEq]
        rw [← hnote]
      · intro c hc
        simp only [errorResponses, List.mem_map] at hc
        obtain ⟨_, -, rfl⟩ := hc
        rfl
    | ok b =>
      rw [hh] at hproper
      simp only at hproper
      obtain ⟨parts, p1, p2, p3, p4⟩ := C41_reply_parts net C hC b hproper
      refine ⟨replyResponses (S.pub sk) t.savedNote parts, ?_, by simp [replyResponses, p2], ?_, ?_, parts, p1, ?_⟩
      · intro rr
        unfold RunTask
        constructor
        · rintro ⟨pl, a1, a2⟩
          rw [(hrec pl).1 a1] at a2
          simp only [hh] at a2
          obtain ⟨ps, b1, b2⟩ := a2
          rw [List.nil_append] at b1
          rw [(p1 ps).1 b1] at b2
          exact b2
        · rintro rfl
          refine ⟨.ok args, (hrec _).2 rfl, ?_⟩
          simp only [hh]
          exact ⟨.ok parts, by rw [List.nil_append]; exact (p1 _).2 rfl, rfl⟩
      · intro r hr; obtain ⟨p, -, rfl⟩ := List.mem_map.1 hr; rfl
      · intro r hr; obtain ⟨p, -, rfl⟩ := List.mem_map.1 hr; rfl
      · simp [replyResponses]
  obtain ⟨rs, hrun, hlen, hnotes, hcont⟩ := hmain
  obtain ⟨resps, o1, o2, o3⟩ := signOutput_ok S H cod sk t.savedNote rs (List.length_pos_iff.1 (by omega)) t.savedNote hnote hnotes (by omega)
  refine ⟨resps, ?_, by omega, ?_, ?_⟩
  · intro res
    unfold TaskOutput
    constructor
    · rintro ⟨rr, a1, a2⟩
      rw [(hrun rr).1 a1] at a2
      rw [a2]; exact o1
    · rintro rfl
      exact ⟨_, (hrun _).2 rfl, o1.symm⟩
  · intro c hc
    obtain ⟨i, hi⟩ := List.getElem?_of_mem hc
    obtain ⟨r, -, -, -, -, x, hx, hxn, hv⟩ := o3 i c hi
    refine ⟨x, hx, ?_, hv⟩
    have := congrArg ExchangeNote.calluuid hxn
    exact this
  · have hmem : ∀ c ∈ resps, ∃ r ∈ rs.1, c.rpcError = r.rpcError := by
      intro c hc
      obtain ⟨i, hi⟩ := List.getElem?_of_mem hc
      obtain ⟨r, hr, -, he, -⟩ := o3 i c hi
      exact ⟨r, List.mem_of_getElem? hr, he⟩
    cases hh : h t.method t.savedNote.calluuid args with
    | error e =>
      rw [hh] at hcont
      intro c hc
      obtain ⟨r, hr, he⟩ := hmem c hc
      rw [he]; exact hcont r hr
    | ok b =>
      rw [hh] at hcont
      obtain ⟨c1, parts, c2, c3⟩ := hcont
      refine ⟨?_, parts, c2, ?_⟩
      · intro c hc
        obtain ⟨r, hr, he⟩ := hmem c hc
        rw [he]; exact c1 r hr
      · rw [← c3]
        apply List.ext_getElem?
        intro i
        rw [List.getElem?_map, List.getElem?_map]
        cases hr : resps[i]? with
        | none =>
          have := List.getElem?_eq_none_iff.1 hr
          rw [List.getElem?_eq_none (by omega)]
        | some c =>
          obtain ⟨r, hr1, hr2, -⟩ := o3 i c hr
          rw [hr1]
          simp only [Option.map_some]
          rw [hr2]

theorem reduceOption_of_some {α : Type} (L : List (Option α)) (h : ∀ x ∈ L, x.isSome) : L = L.reduceOption.map some := by
  induction L with
  | nil => rfl
  | cons x L ih =>
    obtain ⟨y, rfl⟩ := Option.isSome_iff_exists.1 (h x List.mem_cons_self)
    rw [show List.reduceOption (some y :: L) = y :: List.reduceOption L from rfl, List.map_cons, ← ih (fun x hx => h x (List.mem_cons_of_mem _ hx))]

/-- A call that receives only responses of its task, each at most once, waits or returns the handler's outcome; with `MinimalRelayedParcels`
of them it has returned. -/
theorem task_reply (S : SigScheme) (H : Merkle.HashFn) (cod : Codec) (sk : S.Sk) (net : Network) (C : RS) (hC : NewCoordinator net (.ok C))
    (h1 : 1 ≤ net.tau) (hmaj : (net.serverAddresses.length : Int) < 2 * net.minimalRelayedParcels) (t : CTask μ) (args : Bytes) (h : Behaviour μ) (hp : h.Proper)
    (resps : List CallStreamResponse)
    (hnotes : ∀ c ∈ resps, ∃ x, c.note = some x ∧ x.calluuid = t.savedNote.calluuid ∧ ∀ cache : Cache, (verifyReceiverNote S H cod cache (S.pub sk) x).1 = .ok ())
    (hcont : match h t.method t.savedNote.calluuid args with
      | .error e => ∀ c ∈ resps, c.rpcError = some (errToRpcErr e)
      | .ok b => (∀ c ∈ resps, c.rpcError = none) ∧ ∃ parts, (∀ res, ReplyParts C false net b res ↔ res = .ok parts) ∧ resps.map (·.response) = parts.map some)
    (as : List Answer) (has : (as.map fun a => a.1.response).Subperm (resps.map some)) (hrel : ∀ a ∈ as, a.1.relayStreamError = none)
    (hver : ∀ a ∈ as, ∀ c x, a.1.response = some c → c.note = some x → ∃ cache : Cache, a.2 = (verifyReceiverNote S H cod cache (S.pub sk) x).1) :
    (robustRequest net (as.map Answer.ev) = none ∨
      ∀ more r, RobustReply C false net (as.map Answer.ev ++ more) r ↔ r = some (outcomeOf (h t.method t.savedNote.calluuid args))) ∧
    (net.minimalRelayedParcels ≤ as.length → robustRequest net (as.map Answer.ev) ≠ none) ∧
    ((∃ b, h t.method t.savedNote.calluuid args = .ok b) → (as.length : Int) < net.minimalRelayedParcels → robustRequest net (as.map Answer.ev) = none) := by
  have hmax : net.maxErrors = net.tau - 1 := rfl
  have hmin : net.minimalRelayedParcels = net.serverAddresses.length - (net.tau - 1) := rfl
  have hproper := hp t.method t.savedNote.calluuid args
  have hresp : ∀ a ∈ as, ∃ c ∈ resps, a.1.response = some c := by
    intro a ha
    have := has.subset (List.mem_map_of_mem ha)
    obtain ⟨c, hc, he⟩ := List.mem_map.1 this
    exact ⟨c, hc, he.symm⟩
  cases hh : h t.method t.savedNote.calluuid args with
  | error e =>
    rw [hh] at hcont hproper
    simp only at hcont hproper
    have hv : ∀ a ∈ as, validateRrpcResponse a.2 a.1 = .error (.status (errToRpcErr e)) := by
      intro a ha
      obtain ⟨c, hc, he⟩ := hresp a ha
      simp only [validateRrpcResponse, hrel a ha, he, hcont c hc, statusErr, if_neg hproper]
    have hna : ∀ a ∈ as, a.accepted = false := by
      intro a ha; cases h : a.accepted with
      | false => rfl
      | true => have := (accepted_iff a).1 h; rw [hv a ha] at this; cases this
    have hnc : ∀ a ∈ as, ¬ a.crashes := fun a ha hc => by rw [crashes_iff] at hc; rw [hv a ha] at hc; cases hc
    have hbad : as.countP (fun a => !a.accepted) = as.length := List.countP_eq_length.2 (fun a ha => by simp [hna a ha])
    have hgood : as.countP (·.accepted) = 0 := by
      rw [List.countP_eq_zero]; intro a ha; simp [hna a ha]
    have hret : net.maxErrors < as.length → ∀ more, robustRequest net (as.map Answer.ev ++ more) = some (.error (.status (errToRpcErr e))) := by
      intro hl more
      obtain ⟨a, e', ha, he, hr⟩ := loop_failure net.minimalRelayedParcels net.maxErrors as more 0 [] (by omega) hnc
        (by rw [hbad]; omega) (by rw [hgood]; simp; omega)
      have hmem : a ∈ as := (List.mem_filter.1 (List.mem_of_getElem? ha)).1
      rw [hv a hmem] at he
      injection he with he; subst he
      exact hr
    constructor
    · by_cases hl : net.maxErrors < as.length
      · right
        intro more r
        unfold RobustReply
        rw [hret hl more]
        rfl
      · left
        unfold robustRequest
        have hwait : ∀ (l : List Answer) (errs : Int) (acc : List (Option CallStreamResponse)),
            (∀ a ∈ l, validateRrpcResponse a.2 a.1 = .error (.status (errToRpcErr e))) → errs + l.length ≤ net.maxErrors →
            robustLoop net.minimalRelayedParcels net.maxErrors (l.map Answer.ev) errs acc = none := by
          intro l
          induction l with
          | nil => intro _ _ _ _; rfl
          | cons a l ih =>
            intro errs acc ha hle
            simp only [List.length_cons] at hle
            simp only [List.map_cons, Answer.ev, robustLoop, ha a List.mem_cons_self]
            rw [if_neg (by push_cast at hle; omega)]
            exact ih (errs + 1) acc (fun x hx => ha x (List.mem_cons_of_mem _ hx)) (by push_cast at hle; omega)
        exact hwait as 0 [] hv (by omega)
    · refine ⟨fun hl => ?_, ?_⟩
      · have := hret (by omega) []
        rw [List.append_nil] at this
        rw [this]; simp
      · rintro ⟨b, hb⟩; cases hb
  | ok b =>
    rw [hh] at hcont hproper
    simp only at hcont hproper
    obtain ⟨hne, parts, hparts, hrp⟩ := hcont
    have hv : ∀ a ∈ as, validateRrpcResponse a.2 a.1 = .ok () := by
      intro a ha
      obtain ⟨c, hc, he⟩ := hresp a ha
      obtain ⟨x, hx, -, hok⟩ := hnotes c hc
      obtain ⟨cache, hca⟩ := hver a ha c x he hx
      simp only [validateRrpcResponse, hrel a ha, he, hne c hc, hx, hca, hok cache, liftGo]
    have hacc : ∀ a ∈ as, a.accepted = true := fun a ha => (accepted_iff a).2 (hv a ha)
    have hnc : ∀ a ∈ as, ¬ a.crashes := fun a ha hc => by rw [crashes_iff] at hc; rw [hv a ha] at hc; cases hc
    have hbad : as.countP (fun a => !a.accepted) = 0 := by
      rw [List.countP_eq_zero]; intro a ha; simp [hacc a ha]
    have hgood : as.countP (·.accepted) = as.length := List.countP_eq_length.2 hacc
    obtain ⟨parts', q1, q2, q3, q4⟩ := C41_reply_parts net C hC b hproper
    have : parts' = parts := by have := (hparts _).1 ((q1 _).2 rfl); injection this
    subst this
    have hret : net.minimalRelayedParcels ≤ as.length → ∀ more, robustRequest net (as.map Answer.ev ++ more) =
        some (.ok ((as.take net.minimalRelayedParcels.toNat).map fun a => a.1.response)) := by
      intro hl more
      have := loop_success net.minimalRelayedParcels net.maxErrors as more 0 [] (by simp; omega) hnc (by rw [hbad]; simp; omega) (by rw [hgood]; simp; omega)
      rw [List.filter_eq_self.2 hacc] at this
      simpa [robustRequest] using this
    have few : (as.length : Int) < net.minimalRelayedParcels → robustRequest net (as.map Answer.ev) = none := by
      intro hl
      unfold robustRequest
      have hwait : ∀ (l : List Answer) (errs : Int) (acc : List (Option CallStreamResponse)),
          (∀ a ∈ l, validateRrpcResponse a.2 a.1 = .ok ()) → acc.length + l.length < net.minimalRelayedParcels →
          robustLoop net.minimalRelayedParcels net.maxErrors (l.map Answer.ev) errs acc = none := by
        intro l
        induction l with
        | nil => intro _ _ _ _; rfl
        | cons a l ih =>
          intro errs acc ha hle
          simp only [List.length_cons] at hle
          simp only [List.map_cons, Answer.ev, robustLoop, ha a List.mem_cons_self]
          rw [if_neg (by rw [List.length_append, List.length_singleton]; push_cast at hle ⊢; omega)]
          exact ih errs _ (fun x hx => ha x (List.mem_cons_of_mem _ hx)) (by rw [List.length_append, List.length_singleton]; push_cast at hle ⊢; omega)
      exact hwait as 0 [] hv (by simp; omega)
    refine ⟨?_, ?_, fun _ => few⟩
    · by_cases hl : net.minimalRelayedParcels ≤ as.length
      · right
        intro more r
        unfold RobustReply
        rw [hret hl more]
        simp only
        set sel := as.take net.minimalRelayedParcels.toNat with hsel
        have hsell : (sel.length : Int) = net.minimalRelayedParcels := by
          rw [hsel, List.length_take]; omega
        have h2 : ((sel.map fun a => a.1.response).map fun r => r.bind (·.response)).Subperm (parts'.map some) := by
          have hss : (sel.map fun a => a.1.response).Subperm (resps.map some) := ((List.take_sublist _ _).map _).subperm.trans has
          have := subperm_map (fun (r : Option CallStreamResponse) => r.bind (·.response)) hss
          rw [List.map_map (g := fun (r : Option CallStreamResponse) => r.bind (·.response)) (f := some)] at this
          rw [← hrp]
          exact this
        set L := ((sel.map fun a => a.1.response).map fun r => r.bind (·.response)) with hL
        have hLs : L = L.reduceOption.map some := by
          refine reduceOption_of_some L ?_
          intro x hx
          obtain ⟨y, -, rfl⟩ := List.mem_map.1 (h2.subset hx); rfl
        have hLp : L.reduceOption.Subperm parts' := by
          obtain ⟨l', hl1, hl2⟩ := h2
          obtain ⟨l2, hl3, rfl⟩ := List.sublist_map_iff.1 hl2
          have h3 : L.reduceOption.Perm (l2.map some).reduceOption := hl1.symm.filterMap _
          have h4 : (l2.map some).reduceOption = l2 := by simp [List.reduceOption]
          rw [h4] at h3
          exact h3.subperm.trans hl3.subperm
        have hLl : (L.reduceOption.length : Int) = net.minimalRelayedParcels := by
          have : L.length = L.reduceOption.length := by
            have := congrArg List.length hLs
            rwa [List.length_map (f := some)] at this
          rw [← this, hL]; simpa using hsell
        rw [hLs]
        have := q4 _ hLp hLl.symm.le
        constructor
        · rintro ⟨o, a1, rfl⟩
          rw [(this o).1 a1]; rfl
        · rintro rfl
          exact ⟨_, (this _).2 rfl, rfl⟩
      · exact .inl (few (by omega))
    · intro hl
      have := hret hl []
      rw [List.append_nil] at this
      rw [this]; simp

end Resmix.Rrpc
