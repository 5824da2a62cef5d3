import Verif.Proofs.ParcelEq
import Verif.Spec.Robust
set_option autoImplicit false
/-
Putting pieces together never panics if they have the right shape.
-/
namespace Resmix.Rrpc
open Resmix.Ecc

theorem foldlM_no_panic {α β : Type} (P : β → Prop) (f : β → α → Go β) (l : List α) (hf : ∀ b, P b → ∀ a ∈ l, f b a ≠ .error .panic)
    (hP : ∀ b, P b → ∀ a ∈ l, ∀ b', f b a = .ok b' → P b') (b : β) (hb : P b) : l.foldlM f b ≠ .error .panic := by
  induction l generalizing b with
  | nil => simp [pure, Except.pure]
  | cons a l ih =>
    rw [List.foldlM_cons]
    have h1 := hf b hb a List.mem_cons_self
    cases h : f b a with
    | error e =>
      rw [h] at h1
      simp only [bind, Except.bind]
      exact h1
    | ok b' => exact ih (fun b hb a ha => hf b hb a (List.mem_cons_of_mem _ ha)) (fun b hb a ha => hP b hb a (List.mem_cons_of_mem _ ha)) b' (hP b hb a List.mem_cons_self b' h)

theorem joinCheck_no_panic (n : Nat) (l : List Bytes) (k : Nat) : joinCheck n l k ≠ .error .panic := by
  induction l generalizing k with
  | nil => unfold joinCheck; split <;> simp [eccErr]
  | cons s l ih =>
    unfold joinCheck
    split
    · simp [eccErr]
    · split
      · simp
      · exact ih _

theorem authReconstruct_no_panic (C : RS) (sh : List Bytes) (n : Nat) : authReconstruct C sh n ≠ .error .panic := by
  unfold authReconstruct
  have h1 : reconstruct C sh ≠ .error .panic := by
    unfold reconstruct
    repeat' split
    all_goals simp [eccErr]
  cases h : reconstruct C sh with
  | error e => rw [h] at h1; simpa [bind, Except.bind] using h1
  | ok s =>
    simp only [bind, Except.bind]
    unfold join
    split
    · simp [eccErr]
    · have := joinCheck_no_panic n (s.take C.k) 0
      cases hj : joinCheck n (s.take C.k) 0 with
      | error e => rw [hj] at this; simpa [bind, Except.bind] using this
      | ok _ => simp [bind, Except.bind]

theorem AuthReconstruct_no_panic (C : RS) (st : Bool) (sh : List (List Bytes)) (n : Nat) (hl : sh.length = numChunks) (res : Go Bytes)
    (h : AuthReconstruct C st sh n res) : res ≠ .error .panic := by
  rcases h with ⟨-, rfl⟩ | ⟨o, ho, rfl⟩
  · simp [stoppedErr]
  · unfold authReconstructIn
    rw [if_neg (by omega)]
    have := foldlM_no_panic (fun _ => True) (decodeArrival C sh (n + numChunks)) o ?_ (fun _ _ _ _ _ _ => trivial)
      (List.replicate (n + numChunks) 0) trivial
    · cases hf : o.foldlM (decodeArrival C sh (n + numChunks)) (List.replicate (n + numChunks) 0) with
      | error e => rw [hf] at this; simpa [bind, Except.bind] using this
      | ok d => simp [bind, Except.bind]
    · intro b _ i hi
      have hi : i < numChunks := List.mem_range.1 (ho.mem_iff.1 hi)
      unfold decodeArrival goIndex
      rw [List.getElem?_eq_getElem (by omega)]
      simp only [bind, Except.bind]
      have h1 := authReconstruct_no_panic C sh[i] ((segmentOf (n + numChunks) i).2 - (segmentOf (n + numChunks) i).1)
      cases hr : authReconstruct C sh[i] ((segmentOf (n + numChunks) i).2 - (segmentOf (n + numChunks) i).1) with
      | error e => rw [hr] at h1; simpa using h1
      | ok c => simp

/-- Shards of the right shape. -/
def Shape (C : RS) (sh : List (List Bytes)) : Prop := sh.length = numChunks ∧ ∀ row ∈ sh, row.length = C.k + C.m

theorem mapM_go {α β : Type} (l : List α) (f : α → Go β) (P : α → β → Prop) (hf : ∀ a ∈ l, ∃ b, f a = .ok b ∧ P a b) :
    ∃ out, l.mapM f = .ok out ∧ List.Forall₂ P l out := by
  induction l with
  | nil => exact ⟨[], rfl, .nil⟩
  | cons a l ih =>
    obtain ⟨b, h1, h2⟩ := hf a List.mem_cons_self
    obtain ⟨out, h3, h4⟩ := ih (fun a ha => hf a (List.mem_cons_of_mem _ ha))
    refine ⟨b :: out, ?_, .cons h2 h4⟩
    rw [List.mapM_cons, h1, h3]
    rfl

theorem put_shape (C : RS) (sh : List (List Bytes)) (hs : Shape C sh) (idx : Int) (payload : List Bytes) (h0 : 0 ≤ idx) (h1 : idx < (C.k + C.m : Nat))
    (hp : numChunks ≤ payload.length) : ∃ sh', putIntoShards sh idx payload = .ok sh' ∧ Shape C sh' := by
  obtain ⟨out, ho, hr⟩ := mapM_go sh.zipIdx (fun (x : List Bytes × Nat) => do
      let p ← goIndex payload x.2
      if idx < 0 then .error .panic else goSet x.1 idx.toNat p) (fun _ b => b.length = C.k + C.m) (by
    rintro ⟨row, i⟩ hx
    have hx := List.mem_zipIdx_iff_getElem?.1 hx
    obtain ⟨hi, hrow⟩ := List.getElem?_eq_some_iff.1 hx
    simp only at hi hrow
    have hrl : row.length = C.k + C.m := hs.2 row (hrow ▸ List.getElem_mem hi)
    have hip : i < payload.length := by have := hs.1; omega
    refine ⟨row.set idx.toNat payload[i], ?_, by simpa using hrl⟩
    unfold goIndex goSet
    rw [List.getElem?_eq_getElem hip]
    simp only [bind, Except.bind]
    rw [if_neg (by omega), if_pos (by omega)])
  refine ⟨out, ho, ?_, ?_⟩
  · rw [← hr.length_eq]; simpa using hs.1
  · intro row hrow
    obtain ⟨i, hi, rfl⟩ := List.getElem_of_mem hrow
    exact (List.forall₂_iff_get.1 hr).2 i (by rw [hr.length_eq]; exact hi) hi

theorem newShards_shape (C : RS) : Shape C (newShards C) := by
  refine ⟨by simp [newShards], ?_⟩
  intro row hrow
  obtain ⟨-, rfl⟩ := List.mem_replicate.1 hrow
  simp

theorem fill_shape (C : RS) (ps : List (Int × List Bytes)) (h : ∀ p ∈ ps, 0 ≤ p.1 ∧ p.1 < (C.k + C.m : Nat) ∧ numChunks ≤ p.2.length) :
    ∃ sh, fillShards C ps = .ok sh ∧ Shape C sh := by
  unfold fillShards
  generalize hb : newShards C = b
  have hs : Shape C b := hb ▸ newShards_shape C
  clear hb
  induction ps generalizing b with
  | nil => exact ⟨b, rfl, hs⟩
  | cons p ps ih =>
    obtain ⟨h1, h2, h3⟩ := h p List.mem_cons_self
    obtain ⟨sh', h4, h5⟩ := put_shape C b hs p.1 p.2 h1 h2 h3
    obtain ⟨sh, h6, h7⟩ := ih (fun p hp => h p (List.mem_cons_of_mem _ hp)) sh' h5
    exact ⟨sh, by rw [List.foldlM_cons, h4]; exact h6, h7⟩

theorem leUint32_ok (b : Bytes) (h : 4 ≤ b.length) : ∃ n, leUint32 b = .ok n ∧ n < 2 ^ 32 := by
  match b, h with
  | a :: b :: c :: d :: t, _ =>
    refine ⟨_, rfl, ?_⟩
    have := a.toNat_lt; have := b.toNat_lt; have := c.toNat_lt; have := d.toNat_lt
    omega

theorem leUint32_short (b : Bytes) (h : b.length < 4) : leUint32 b = .error .panic := by
  match b, h with
  | [], _ => rfl
  | [_], _ => rfl
  | [_, _], _ => rfl
  | [_, _, _], _ => rfl
  | _ :: _ :: _ :: _ :: t, h => simp at h; omega

end Resmix.Rrpc
