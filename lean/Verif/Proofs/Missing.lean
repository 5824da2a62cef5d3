import Verif.Spec.Missing
import Verif.Proofs.Lost
set_option autoImplicit false
/-
C146: requests that were refused leave no trace, and fewer events of well-behaved clients are still events of well-behaved clients.
-/
namespace Resmix.System
open Resmix.Sender

section
variable {c : Config} {r : Nat} {subs : List Submission} {hosts : List Str} {L : Nat}

/-- A refused request changes nothing. -/
theorem unheard_same {s s' : State} {e : Event} (h : ¬ Heard r s e) (hst : Step c s e s') : s' = s := by
  cases hst with
  | @client h0 a srv resp ha hs =>
    cases a with
    | addMessages r' ms =>
      simp only [Heard, Classical.not_imp] at h
      obtain ⟨rfl, h⟩ := h
      push Not at h
      unfold Server.step at hs
      split at hs
      · cases hs
      simp only [h] at hs
      cases hs
      exact setServer_same s h0
    | _ => exact absurd trivial h
  | _ => exact absurd trivial h

theorem HeardRun.lossy {s0 : State} {evs got : List Event} {lost : List Request} {s : State} (h : HeardRun c r s0 evs got lost s) :
    LossyRun c r (Heard r) s0 got lost s := by
  induction h with
  | nil => exact .nil
  | snoc _ hh hst ih => exact ih.snoc hh hst
  | unheard _ hh hst ih => rw [unheard_same hh hst]; exact ih

theorem Run.heard {s0 : State} {evs : List Event} {s : State} (h : Run c s0 evs s) : ∃ got lost, HeardRun c r s0 evs got lost s := by
  induction h with
  | nil => exact ⟨_, _, .nil⟩
  | snoc hr hst ih =>
    next evs s s' e =>
    obtain ⟨got, lost, ih⟩ := ih
    by_cases hh : Heard r s e
    · exact ⟨_, _, ih.snoc hh hst⟩
    · exact ⟨_, _, ih.unheard hh hst⟩

theorem HeardRun.sublist {s0 : State} {evs got : List Event} {lost : List Request} {s : State} (h : HeardRun c r s0 evs got lost s) : got.Sublist evs := by
  induction h with
  | nil => exact .slnil
  | snoc _ _ _ ih => exact ih.append (List.Sublist.refl _)
  | unheard _ _ _ ih => exact ih.trans (List.sublist_append_left _ _)

theorem clientOnions_sublist {evs got : List Event} (h : got.Sublist evs) (n : Str) : (clientOnions got r n).Sublist (clientOnions evs r n) := by
  induction h with
  | slnil => exact .slnil
  | cons e _ ih => exact ih.trans (List.sublist_append_right _ _)
  | cons_cons e _ ih => exact (List.Sublist.refl _).append ih

theorem Clients.sublist {t : Topology} {evs got : List Event} (h : Clients t subs r evs) (hs : got.Sublist evs) : Clients t subs r got where
  once h' := (hs.filter _).length_le.trans (h.once h')
  loads h' ls order he := h.loads h' ls order (hs.subset he)
  first h' ms he := h.first h' ms (hs.subset he)
  onions ch first hf := (clientOnions_sublist hs _).subperm.trans (h.onions ch first hf)

theorem Orderly.sublist {t : Topology} {evs got : List Event} (h : Orderly t r evs) (hs : got.Sublist evs) : Orderly t r got where
  noEnd h' he := h.noEnd h' (hs.subset he)
  form h' ms he := h.form h' ms (hs.subset he)

theorem AllOrderly.sublist {evs got : List Event} (h : AllOrderly c L evs) (hs : got.Sublist evs) : AllOrderly c L got := fun r hr => by
  obtain ⟨subs, h1, h2, h3⟩ := h r hr
  exact ⟨subs, h1, h2.sublist hs, h3.sublist hs⟩

/-- Once the round is open everywhere, the servers alone lose nothing more. -/
theorem heard_continue (hL : 0 < L) (hc : Topology.createCascade hosts L = .ok c.topo) (hconn : Connected c hosts) {conn : Str → Bool} {evs got : List Event}
    {lost : List Request} {s : State} (hrun : HeardRun c r (init conn) evs got lost s) (hr : r < 2 ^ 32) (hall : AllOrderly c L evs)
    (hopen : ∀ h ∈ hosts, (s.servers h).rounds.lookup r ≠ none) {evs' : List Event} {s' : State} (hr' : Run c s evs' s') (hown : ∀ e ∈ evs', Own e) :
    HeardRun c r (init conn) (evs ++ evs') (got ++ evs') lost s' := by
  have hrun' := hrun.lossy.run
  have hall' := hall.sublist hrun.sublist
  obtain ⟨_, hb⟩ := bounded hL hc hconn hrun' hall'
  induction hr' with
  | nil => simpa using hrun
  | snoc hr1 hst ih =>
    next evs1 s1 s2 e =>
    have ho1 : ∀ e ∈ evs1, Own e := fun e he => hown e (by simp [he])
    have hsame := (hb evs1 s1 hr1 ho1).2
    have hoe : Own e := hown e (by simp)
    have hnil : lostBy r s1 e = [] := by
      cases e with
      | deliver k =>
        unfold lostBy
        rw [List.filter_eq_nil_iff]
        intro rq hrq hx
        simp only [Bool.and_eq_true, decide_eq_true_eq] at hx
        have hrq : s1.net[k]? = some rq := by simpa using hrq
        obtain ⟨subs, z1, z2, z3⟩ := hall' r hr
        have := net_hosts hL hc z1 hr (hrun'.append hr1) (z2.own ho1) (z3.own ho1) rq (List.mem_of_getElem? hrq) hx.1
        rw [(hsame rq.host).2] at hx
        exact hopen _ this hx.2
      | drop k => exact absurd rfl (hoe.2 _)
      | _ => rfl
    have hh : Heard r s1 e := by
      cases e with
      | client h a => exact absurd rfl (hoe.1 _ _)
      | _ => trivial
    have := (ih ho1).snoc hh hst
    rw [hnil, List.append_nil] at this
    rw [← List.append_assoc, ← List.append_assoc]
    exact this

end

end Resmix.System
