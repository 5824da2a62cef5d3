import Verif.Model.Base
set_option autoImplicit false
/-
Sums over lists.
-/
namespace Resmix

/-- The sum of `f` over a list. -/
def sumBy {α : Type} (f : α → Nat) (l : List α) : Nat := (l.map f).sum

theorem sum_set {α : Type} (f : α → Nat) (l : List α) (i : Nat) (a b : α) (h : l[i]? = some a) : sumBy f (l.set i b) + f a = sumBy f l + f b := by
  unfold sumBy
  induction l generalizing i with
  | nil => cases h
  | cons x l ih =>
    cases i with
    | zero =>
      simp only [List.getElem?_cons_zero, Option.some.injEq] at h
      subst h
      simp only [List.set_cons_zero, List.map_cons, List.sum_cons]; omega
    | succ i =>
      simp only [List.getElem?_cons_succ] at h
      have := ih i h
      simp only [List.set_cons_succ, List.map_cons, List.sum_cons]; omega

theorem sum_mem {α : Type} (f : α → Nat) (l : List α) (i : Nat) (a : α) (h : l[i]? = some a) : f a ≤ sumBy f l := by
  have := sum_set f l i a a h
  unfold sumBy
  induction l generalizing i with
  | nil => cases h
  | cons x l ih =>
    cases i with
    | zero => simp at h; subst h; simp
    | succ i =>
      simp only [List.getElem?_cons_succ] at h
      have := ih i h (sum_set f l i a a h)
      simp only [List.map_cons, List.sum_cons]; omega

end Resmix
