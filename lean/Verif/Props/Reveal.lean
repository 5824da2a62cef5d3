import Verif.Props.Ibe
set_option autoImplicit false
/-
C69, the part that holds.
-/
namespace Resmix.Tibe

/-- A sequence of Reveal calls on one Secret value: every call sees the bytes the calls before it left there. Returns the results and the Secret at the end. -/
def revealAll {B : Bls} (s : Secret B) : List (Player B × List (Vote B)) → List (Go Bytes) × Secret B
  | [] => ([], s)
  | (p, votes) :: rest => (((p.reveal votes s).1 :: (revealAll (p.reveal votes s).2 rest).1), (revealAll (p.reveal votes s).2 rest).2)

/-- `votes` starts with `t` votes for `id` of distinct publishers. -/
def Sufficient {B : Bls} (P : Poly) (n : Nat) (id : Bytes) (votes : List (Vote B)) : Prop :=
  P.coefs.length ≤ votes.length ∧ (∀ v ∈ votes.take P.coefs.length, ∃ k pl, IsPublisher P n k pl ∧ v = pl.vote id) ∧
    ((votes.take P.coefs.length).map (·.index)).Nodup

/-- There are fewer than `t` votes, or a voter occurs twice among the first `t`. -/
def Insufficient {B : Bls} (P : Poly) (votes : List (Vote B)) : Prop :=
  votes.length < P.coefs.length ∨ ¬ ((votes.take P.coefs.length).map (·.index)).Nodup

/-- A Reveal that fails for want of votes leaves the Secret as it was. -/
theorem reveal_insufficient {B : Bls} {P : Poly} {n j : Nat} {pl : Player B} (hn : n < 2 ^ 63) (ht : P.coefs.length ≤ n) (h : IsPublisher P n j pl)
    {votes : List (Vote B)} (hv : Insufficient P votes) (s : Secret B) : (∃ m, (pl.reveal votes s).1 = .error (.err .unknown m)) ∧ (pl.reveal votes s).2 = s := by
  obtain ⟨ht', _⟩ := isPublisher_spec hn ht h
  unfold Player.reveal
  rw [ht']
  rcases hv with hb | hb
  · rw [reconstructKey_few hb]; exact ⟨⟨_, rfl⟩, rfl⟩
  · by_cases hl : P.coefs.length ≤ votes.length
    · rw [reconstructKey_dup hl hb]; exact ⟨⟨_, rfl⟩, rfl⟩
    · rw [reconstructKey_few (by omega)]; exact ⟨⟨_, rfl⟩, rfl⟩

/-- C69, what holds: any number of Reveal calls by any publishers that fail for want of votes leave the Secret as it is, and return errors; the first call with sufficient
votes then gives the message. And calls with sufficient votes, each on a Secret of its own with the same contents (a copy), all give it. Missing: a second successful call
on the same Secret value (C69_reveal_twice_refuted). -/
theorem C69_first_success_partial (B : Bls) (P : Poly) (n : Nat) (hn : n < 2 ^ 63) (ht : P.coefs.length ≤ n)
    (i : Nat) (hider : Player B) (hh : IsPublisher P n i hider) (r : Fr) (iv id msg : Bytes) (hiv : iv.length = 16) :
    ∃ s, hider.hide r iv id msg = .ok s ∧
      (∀ (attempts : List (Player B × List (Vote B))), (∀ a ∈ attempts, (∃ j, IsPublisher P n j a.1) ∧ Insufficient P a.2) →
        (revealAll s attempts).2 = s ∧ (∀ x ∈ (revealAll s attempts).1, ∃ m, x = .error (.err .unknown m)) ∧
        ∀ (j : Nat) (revealer : Player B) (votes : List (Vote B)), IsPublisher P n j revealer → Sufficient P n id votes →
          (revealAll s (attempts ++ [(revealer, votes)])).1.getLast? = some (.ok msg)) ∧
      (∀ (calls : List (Player B × List (Vote B))), (∀ a ∈ calls, (∃ j, IsPublisher P n j a.1) ∧ Sufficient P n id a.2) →
        ∀ a ∈ calls, (a.1.reveal a.2 s).1 = .ok msg) := by
  obtain ⟨s, hs, _⟩ := C37_hide_reveal_partial B P n hn ht i i hider hider hh hh r iv id msg hiv []
  have hone : ∀ (j : Nat) (revealer : Player B) (votes : List (Vote B)), IsPublisher P n j revealer → Sufficient P n id votes → (revealer.reveal votes s).1 = .ok msg := by
    intro j revealer votes hr hv
    obtain ⟨s', hs', hrev, _⟩ := C37_hide_reveal_partial B P n hn ht i j hider revealer hh hr r iv id msg hiv votes
    rw [hs] at hs'; injection hs' with hs'; subst hs'
    exact hrev hv.1 hv.2.1 hv.2.2
  refine ⟨s, hs, ?_, fun calls hc a ha => ?_⟩
  · intro attempts
    induction attempts with
    | nil =>
      intro _
      refine ⟨rfl, by simp [revealAll], fun j revealer votes hr hv => ?_⟩
      simp [revealAll, hone j revealer votes hr hv]
    | cons a rest ih =>
      intro ha
      obtain ⟨⟨j, hj⟩, hv⟩ := ha a (List.mem_cons_self ..)
      obtain ⟨he, hsame⟩ := reveal_insufficient hn ht hj hv s
      obtain ⟨h1, h2, h3⟩ := ih (fun x hx => ha x (List.mem_cons_of_mem _ hx))
      refine ⟨by simp only [revealAll, hsame]; exact h1, ?_, ?_⟩
      · intro x hx
        simp only [revealAll, hsame, List.mem_cons] at hx
        rcases hx with rfl | hx
        · exact he
        · exact h2 x hx
      · intro j revealer votes hr hv'
        have := h3 j revealer votes hr hv'
        simp only [List.cons_append, revealAll, hsame]
        rw [List.getLast?_cons, this]; rfl
  · obtain ⟨⟨j, hj⟩, hv⟩ := hc a ha
    exact hone j a.1 a.2 hj hv

/-- Publishers 1 and 2 of the concrete group of three with threshold two: two votes are sufficient, one vote and one voter twice are not. -/
example : ∃ a b : Player Bls.toy, IsPublisher exPoly 3 0 a ∧ IsPublisher exPoly 3 1 b ∧ Sufficient exPoly 3 [1] [a.vote [1], b.vote [1]] ∧
    Insufficient exPoly [a.vote [1]] ∧ Insufficient exPoly [a.vote [1], a.vote [1]] := by
  obtain ⟨a, ha⟩ := exPublisher 0 (by decide)
  obtain ⟨b, hb⟩ := exPublisher 1 (by decide)
  obtain ⟨_, a2, _⟩ := isPublisher_spec (by decide) (by decide) ha
  obtain ⟨_, b2, _⟩ := isPublisher_spec (by decide) (by decide) hb
  refine ⟨a, b, ha, hb, ⟨by simp [exPoly], ?_, ?_⟩, .inl (by simp [exPoly]), .inr ?_⟩
  · intro v hv
    have : v = a.vote [1] ∨ v = b.vote [1] := by simpa using List.mem_of_mem_take hv
    rcases this with rfl | rfl
    · exact ⟨0, a, ha, rfl⟩
    · exact ⟨1, b, hb, rfl⟩
  · simp [exPoly, Player.vote, a2, b2]
  · simp [exPoly, Player.vote]

end Resmix.Tibe
