import Verif.Model.Publish
import Mathlib.Data.List.Basic
set_option autoImplicit false
/-
C99: publishing proofs.
-/
namespace Resmix.Rrpc.Publish
variable {π : Type}

theorem sendProof_total (p : π) (c : Conn π) : ∃ c', SendProof p c c' := by
  by_cases h : c.queue.length < 100
  · exact ⟨_, .sent c h⟩
  · cases hc : c.cancelled with
    | true => exact ⟨_, .done c hc⟩
    | false => exact ⟨_, .default c h hc⟩

theorem publish_total (p : π) (cs : List (Conn π)) : ∃ cs', PublishProof p cs cs' := by
  induction cs with
  | nil => exact ⟨[], .nil⟩
  | cons c cs ih =>
    obtain ⟨cs', h⟩ := ih
    obtain ⟨c', h'⟩ := sendProof_total p c
    exact ⟨c' :: cs', .cons h' h⟩

theorem inv {n : Nat} {ps : List π} {cs : List (Conn π)} (h : Reachable n ps cs) :
    cs.length = n ∧ ∀ c ∈ cs, (c.received ++ c.queue).Sublist ps ∧ c.queue.length ≤ 100 := by
  induction h with
  | init =>
    refine ⟨by simp, fun c hc => ?_⟩
    rw [List.eq_of_mem_replicate hc]
    exact ⟨by simp [Conn.init], by simp [Conn.init]⟩
  | publish ps p cs cs' _ hp ih =>
    refine ⟨by rw [← hp.length_eq]; exact ih.1, ?_⟩
    intro c' hc'
    obtain ⟨i, hi⟩ := List.mem_iff_getElem?.1 hc'
    have hlt : i < cs'.length := (List.getElem?_eq_some_iff.1 hi).1
    have hlt' : i < cs.length := by rw [hp.length_eq]; exact hlt
    have hs := hp.get hlt' hlt
    obtain ⟨h1, h2⟩ := ih.2 cs[i] (List.getElem_mem hlt')
    have he : cs'[i] = c' := by
      rw [List.getElem?_eq_getElem hlt] at hi; injection hi
    simp only [List.get_eq_getElem] at hs
    rw [he] at hs
    have hkeep : (cs[i].received ++ cs[i].queue).Sublist (ps ++ [p]) := h1.trans (List.sublist_append_left ps [p])
    generalize cs[i] = c at *
    cases hs with
    | sent hq =>
      refine ⟨?_, by simp only [List.length_append, List.length_singleton]; omega⟩
      simp only
      rw [← List.append_assoc]
      exact h1.append (List.Sublist.refl [p])
    | done _ => exact ⟨hkeep, h2⟩
    | default _ _ => exact ⟨hkeep, h2⟩
  | step ps cs i c c' _ hi hst ih =>
    refine ⟨by simp [ih.1], ?_⟩
    intro d hd
    rcases List.mem_or_eq_of_mem_set hd with hd | rfl
    · exact ih.2 d hd
    · obtain ⟨h1, h2⟩ := ih.2 c (List.mem_of_getElem? hi)
      cases hst with
      | send p q hr hq =>
        simp only [hq] at h1 h2 ⊢
        refine ⟨by simpa using h1, by simp only [List.length_cons] at h2; omega⟩
      | fail p q hr hq =>
        simp only [hq] at h1 h2 ⊢
        exact ⟨(List.Sublist.append (List.Sublist.refl _) (List.sublist_cons_self p q)).trans h1, by simp only [List.length_cons] at h2; omega⟩
      | cancel => exact ⟨h1, h2⟩
      | stop _ _ => exact ⟨h1, h2⟩

/-- C99. Whatever the relays do, and whatever became of the connections: publishing a proof always returns (it never waits); every relay receives proofs in the order in which
they were published, none more often than it was published; and at most 100 proofs per relay wait. -/
theorem C99_never_blocks {n : Nat} {ps : List π} {cs : List (Conn π)} (h : Reachable n ps cs) (p : π) :
    (∃ cs', PublishProof p cs cs' ∧ Reachable n (ps ++ [p]) cs') ∧ cs.length = n ∧ ∀ c ∈ cs, c.received.Sublist ps ∧ c.queue.length ≤ 100 := by
  obtain ⟨h1, h2⟩ := inv h
  obtain ⟨cs', hp⟩ := publish_total p cs
  exact ⟨⟨cs', hp, .publish ps p cs cs' h hp⟩, h1, fun c hc => ⟨(List.sublist_append_left c.received c.queue).trans (h2 c hc).1, (h2 c hc).2⟩⟩

/-- The histories in which relay `i` is served: its connection may make any step (so may the others), but is not closed, what leaves its
queue arrives (no send to it fails), and a proof is published only while fewer than 100 wait for it. -/
inductive Served (n i : Nat) : List π → List (Conn π) → Prop
  | init : Served n i [] (List.replicate n .init)
  | publish (ps : List π) (p : π) (cs cs' : List (Conn π)) : Served n i ps cs → PublishProof p cs cs' → (∀ c, cs[i]? = some c → c.queue.length < 100) → Served n i (ps ++ [p]) cs'
  | other (ps : List π) (cs : List (Conn π)) (j : Nat) (c c' : Conn π) : Served n i ps cs → j ≠ i → cs[j]? = some c → Step c c' → Served n i ps (cs.set j c')
  | own (ps : List π) (cs : List (Conn π)) (c c' : Conn π) : Served n i ps cs → cs[i]? = some c → Step c c' → c'.cancelled = false →
      (c'.queue ≠ c.queue → c'.received ≠ c.received) → Served n i ps (cs.set i c')

theorem served_inv {n i : Nat} {ps : List π} {cs : List (Conn π)} (h : Served n i ps cs) :
    cs.length = n ∧ ∀ c, cs[i]? = some c → c.received ++ c.queue = ps ∧ c.running = true ∧ c.cancelled = false := by
  induction h with
  | init =>
    refine ⟨by simp, fun c hc => ?_⟩
    rw [List.eq_of_mem_replicate (List.mem_of_getElem? hc)]
    exact ⟨rfl, rfl, rfl⟩
  | publish ps p cs cs' _ hp hroom ih =>
    refine ⟨by rw [← hp.length_eq]; exact ih.1, ?_⟩
    intro c' hi
    have hlt : i < cs'.length := (List.getElem?_eq_some_iff.1 hi).1
    have hlt' : i < cs.length := by rw [hp.length_eq]; exact hlt
    have hs := hp.get hlt' hlt
    have hc : cs[i]? = some cs[i] := List.getElem?_eq_getElem hlt'
    obtain ⟨h1, h2, h3⟩ := ih.2 _ hc
    have hr := hroom _ hc
    have he : cs'[i] = c' := by
      rw [List.getElem?_eq_getElem hlt] at hi; injection hi
    simp only [List.get_eq_getElem] at hs
    rw [he] at hs
    generalize cs[i] = c at *
    cases hs with
    | sent hq => exact ⟨by simp only; rw [← List.append_assoc, h1], h2, h3⟩
    | done hd => rw [h3] at hd; cases hd
    | default hq _ => exact absurd hr hq
  | other ps cs j c c' _ hj _ _ ih => exact ⟨by simp [ih.1], fun d hd => ih.2 d (by rwa [List.getElem?_set_ne hj] at hd)⟩
  | own ps cs c c' _ hi hst hcan hnf ih =>
    refine ⟨by simp [ih.1], fun d hd => ?_⟩
    have hlt := (List.getElem?_eq_some_iff.1 hi).1
    rw [List.getElem?_set_self hlt] at hd
    injection hd with hd; subst hd
    obtain ⟨h1, h2, h3⟩ := ih.2 c hi
    cases hst with
    | send p q hr hq => exact ⟨by simp only; rw [← h1, hq]; simp, h2, h3⟩
    | fail p q hr hq => exact absurd rfl (hnf (by simp [hq]))
    | cancel => cases hcan
    | stop _ hc => rw [h3] at hc; cases hc

/-- C99, delivery: as long as a relay is served, whatever happens at the other relays, it has received or will receive every proof: what it has received followed by what
waits for it is exactly what was published, and the next one waiting can be sent. -/
theorem C99_delivery {n i : Nat} {ps : List π} {cs : List (Conn π)} (h : Served n i ps cs) (hi : i < n) :
    ∃ c, cs[i]? = some c ∧ c.received ++ c.queue = ps ∧ (c.received ≠ ps → ∃ c', Step c c' ∧ c'.received.length = c.received.length + 1) := by
  obtain ⟨h1, h2⟩ := served_inv h
  have hc : cs[i]? = some (cs[i]'(by omega)) := List.getElem?_eq_getElem (by omega)
  obtain ⟨h3, h4, h5⟩ := h2 _ hc
  refine ⟨_, hc, h3, fun hne => ?_⟩
  generalize cs[i] = c at *
  cases hq : c.queue with
  | nil => rw [hq, List.append_nil] at h3; exact absurd h3 hne
  | cons p q => exact ⟨_, .send c p q h4 hq, by simp⟩

/-- Two relays, the first closed; a proof published for both. -/
example (p : π) : Served 2 1 [p] [{ queue := [], cancelled := true, running := true, received := [] }, { queue := [], cancelled := false, running := true, received := [p] }] := by
  have h0 : Served 2 1 ([] : List π) [.init, .init] := .init
  have h1 := Served.other [] _ 0 .init { Conn.init with cancelled := true } h0 (by decide) rfl (.cancel _)
  have h2 := Served.publish [] p _ [{ Conn.init with cancelled := true }, { Conn.init with queue := [p] }] h1
    (.cons (.done _ rfl) (.cons (.sent _ (by simp [Conn.init])) .nil)) (by intro c hc; simp at hc; subst hc; simp [Conn.init])
  exact Served.own _ _ _ _ h2 rfl (.send _ p [] rfl rfl) rfl (by simp [Conn.init])

end Resmix.Rrpc.Publish
