import Verif.Spec.CallSystem
import Mathlib.Algebra.BigOperators.Fin
import Mathlib.Algebra.BigOperators.Group.Finset.Basic
import Mathlib.Algebra.Order.BigOperators.Group.Finset
set_option autoImplicit false
/-
Sums over all places of a message.
-/
namespace Resmix.Rrpc.CallSystem

section
variable {L α : Type} [DecidableEq L] [Fintype L]

/-- The total weight of all messages. -/
def pot (w : L → α → Nat) (f : L → List α) : Nat := ∑ l, ((f l).map (w l)).sum

theorem pot_update (w : L → α → Nat) (f : L → List α) (l : L) (v : List α) :
    pot w (Function.update f l v) + ((f l).map (w l)).sum = pot w f + (v.map (w l)).sum := by
  unfold pot
  rw [← Finset.add_sum_erase Finset.univ _ (Finset.mem_univ l), ← Finset.add_sum_erase Finset.univ (fun l => ((f l).map (w l)).sum) (Finset.mem_univ l)]
  have : ∑ x ∈ Finset.univ.erase l, ((Function.update f l v x).map (w x)).sum = ∑ x ∈ Finset.univ.erase l, ((f x).map (w x)).sum := by
    apply Finset.sum_congr rfl
    intro x hx
    rw [Function.update_of_ne (Finset.ne_of_mem_erase hx)]
  simp only [Function.update_self]
  omega

theorem pot_push (w : L → α → Nat) (f : L → List α) (l : L) (x : α) : pot w (push f l x) = pot w f + w l x := by
  have := pot_update w f l (f l ++ [x])
  simp only [List.map_append, List.sum_append, List.map_cons, List.map_nil, List.sum_cons, List.sum_nil] at this
  unfold push
  omega

theorem pot_pop (w : L → α → Nat) (f : L → List α) (l : L) (x : α) (rest : List α) (h : f l = x :: rest) :
    pot w (Function.update f l rest) + w l x = pot w f := by
  have := pot_update w f l rest
  rw [h] at this
  simp only [List.map_cons, List.sum_cons] at this
  omega

theorem pot_move (w : L → α → Nat) (f : L → List α) (l l' : L) (x : α) (rest : List α) (h : f l = x :: rest) :
    pot w (move f l l' x rest) + w l x = pot w f + w l' x := by
  have h1 := pot_pop w f l x rest h
  have h2 := pot_push w (Function.update f l rest) l' x
  show pot w (push (Function.update f l rest) l' x) + _ = _
  omega

theorem mem_move {f : L → List α} {l l' : L} {x : α} {rest : List α} (h : f l = x :: rest) {j : L} {y : α} (hy : y ∈ move f l l' x rest j) :
    y ∈ f j ∨ (y = x ∧ j = l') := by
  unfold move at hy
  by_cases hj : j = l'
  · subst hj
    rw [Function.update_self] at hy
    rcases List.mem_append.1 hy with hy | hy
    · by_cases hjl : j = l
      · subst hjl; rw [Function.update_self] at hy; left; rw [h]; exact List.mem_cons_of_mem _ hy
      · rw [Function.update_of_ne hjl] at hy; exact .inl hy
    · exact .inr ⟨List.mem_singleton.1 hy, rfl⟩
  · rw [Function.update_of_ne hj] at hy
    by_cases hjl : j = l
    · subst hjl; rw [Function.update_self] at hy; left; rw [h]; exact List.mem_cons_of_mem _ hy
    · rw [Function.update_of_ne hjl] at hy; exact .inl hy

theorem mem_push {f : L → List α} {l : L} {x : α} {j : L} {y : α} (hy : y ∈ push f l x j) : y ∈ f j ∨ (y = x ∧ j = l) := by
  unfold push at hy
  by_cases hj : j = l
  · subst hj; rw [Function.update_self] at hy
    rcases List.mem_append.1 hy with hy | hy
    · exact .inl hy
    · exact .inr ⟨List.mem_singleton.1 hy, rfl⟩
  · rw [Function.update_of_ne hj] at hy; exact .inl hy

theorem move_other {f : L → List α} {l l' : L} {x : α} {rest : List α} {j : L} (h1 : j ≠ l) (h2 : j ≠ l') : move f l l' x rest j = f j := by
  unfold move; rw [Function.update_of_ne h2, Function.update_of_ne h1]

theorem move_to {f : L → List α} {l l' : L} {x : α} {rest : List α} (h : l' ≠ l) : move f l l' x rest l' = f l' ++ [x] := by
  unfold move; rw [Function.update_self, Function.update_of_ne h]

theorem move_from {f : L → List α} {l l' : L} {x : α} {rest : List α} (h : l ≠ l') : move f l l' x rest l = rest := by
  unfold move; rw [Function.update_of_ne h, Function.update_self]

/-- The number of messages with property `p`. -/
def cnt (p : α → Bool) (f : L → List α) : Nat := pot (fun _ x => if p x then 1 else 0) f

theorem sum_ite_count (p : α → Bool) (l : List α) : (l.map fun x => if p x then 1 else 0).sum = l.countP p := by
  induction l with
  | nil => rfl
  | cons x l ih => simp only [List.map_cons, List.sum_cons, ih, List.countP_cons]; split <;> omega

theorem cnt_eq (p : α → Bool) (f : L → List α) : cnt p f = ∑ l, (f l).countP p := by
  unfold cnt pot
  exact Finset.sum_congr rfl fun l _ => sum_ite_count p _

theorem cnt_move (p : α → Bool) (f : L → List α) (l l' : L) (x : α) (rest : List α) (h : f l = x :: rest) :
    cnt p (move f l l' x rest) = cnt p f := by
  have := pot_move (fun _ x => if p x then 1 else 0) f l l' x rest h
  unfold cnt; omega

theorem cnt_ge (p : α → Bool) (f : L → List α) (l : L) : (f l).countP p ≤ cnt p f := by
  rw [cnt_eq]; exact Finset.single_le_sum (f := fun l => (f l).countP p) (fun _ _ => Nat.zero_le _) (Finset.mem_univ l)

/-- If there is only one such message, it is at one place. -/
theorem cnt_place (p : α → Bool) (f : L → List α) (h : cnt p f ≤ 1) {l l' : L} {x y : α} (hx : x ∈ f l) (hy : y ∈ f l') (px : p x = true) (py : p y = true) : l = l' := by
  by_contra hne
  rw [cnt_eq] at h
  have h1 : 0 < (f l).countP p := List.countP_pos_iff.2 ⟨x, hx, px⟩
  have h2 : 0 < (f l').countP p := List.countP_pos_iff.2 ⟨y, hy, py⟩
  have h3 : (f l).countP p + (f l').countP p ≤ ∑ l, (f l).countP p := by
    have := Finset.sum_le_sum_of_subset (f := fun l => (f l).countP p) (Finset.subset_univ {l, l'})
    rwa [Finset.sum_pair hne] at this
  omega

theorem cnt_pos (p : α → Bool) (f : L → List α) (h : 0 < cnt p f) : ∃ l x, x ∈ f l ∧ p x = true := by
  by_contra hc
  push Not at hc
  rw [cnt_eq, Finset.sum_eq_zero] at h
  · omega
  · intro l _
    rw [List.countP_eq_zero]
    intro x hx
    have := hc l x hx
    simpa using this

end
end Resmix.Rrpc.CallSystem
