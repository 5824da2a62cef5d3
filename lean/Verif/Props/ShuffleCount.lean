import Verif.Props.Shuffle
import Mathlib.SetTheory.Cardinal.Finite
import Mathlib.Data.Nat.Factorial.BigOperators
import Mathlib.Data.Fintype.BigOperators
import Mathlib.Algebra.BigOperators.Intervals
import Mathlib.Algebra.BigOperators.Fin
import Mathlib.Algebra.Order.BigOperators.Ring.Finset
set_option autoImplicit false
/-
C15, counted: how many of the (2^32)^n equally likely sequences of random words lead to each order.
-/
namespace Resmix.Shuffle
open Finset

theorem card_words (N : Nat) (q : Nat → Bool) : Nat.card {w : Fin N // q w = true} = ((List.range N).filter q).length := by
  have e : {w : Fin N // q w = true} ≃ {x // x ∈ (Finset.range N).filter fun x => q x = true} :=
    { toFun := fun w => ⟨w.1.1, by simp [w.1.2, w.2]⟩
      invFun := fun x => ⟨⟨x.1, Finset.mem_range.1 (Finset.mem_filter.1 x.2).1⟩, (Finset.mem_filter.1 x.2).2⟩
      left_inv := fun w => rfl
      right_inv := fun x => rfl }
  rw [Nat.card_congr e, Nat.card_eq_fintype_card, Fintype.card_coe]
  have : (Finset.range N).filter (fun x => q x = true) = ((List.range N).filter q).toFinset := by
    ext x; simp
  rw [this, List.toFinset_card_of_nodup (List.nodup_range.filter _)]

/-- The sequences of `n` random words (each of the 2^32 values of a 4-byte read) that make the shuffler choose the order `p`. -/
def Leads (n : Nat) (p : List Nat) (f : Fin n → Fin (2 ^ 32)) : Prop :=
  ∃ s, permutation scripted (List.ofFn fun k => be32 (f k)) n = .ok (p, s)

/-- C15, all together: when the random words are uniform and independent, every order of `n` elements is almost equally likely. Of the
(2^32)^n sequences of words a fraction of at least ∏(1 - m/2^32)/n! and at most ∏(1 + m/2^32)/n!, m = 0..n-1, leads to any given order
(exactly 1/n! would be ideal); no order is impossible, and different orders never share a sequence. -/
theorem C15_orders_nearly_uniform (n : Nat) (hn : n ≤ 2 ^ 32) (p : List Nat) (hp : p.Perm (List.range n)) :
    ∏ m ∈ range n, (2 ^ 32 - m) ≤ n.factorial * Nat.card {f // Leads n p f} ∧
    n.factorial * Nat.card {f // Leads n p f} ≤ ∏ m ∈ range n, (2 ^ 32 + m) ∧
    0 < Nat.card {f // Leads n p f} ∧
    ∀ f p', Leads n p f → Leads n p' f → p = p' := by
  obtain ⟨js, ⟨hl, hlt⟩, hiff, _⟩ := C15_every_order_exactly_one_draw_sequence n hn p hp
  have hlt' : ∀ k : Fin n, js.getD k 0 < n - k := by
    intro k
    have := hlt k (by omega)
    simpa [List.getD, hl] using this
  have hset : ∀ f : Fin n → Fin (2 ^ 32), Leads n p f ↔ ∀ k : Fin n, (fun w : Fin (2 ^ 32) => decide (beNat (be32 w) % (n - k) = js.getD k 0) = true) (f k) := by
    intro f
    unfold Leads
    rw [hiff _ (by simp) (by intro w hw; obtain ⟨k, rfl⟩ := List.mem_ofFn.1 hw; rfl)]
    constructor
    · intro h k
      have := h k (by simp)
      simp [List.getD, this]
    · intro h k hk
      have hk : k < n := by simpa using hk
      have := h ⟨k, hk⟩
      simp only [decide_eq_true_eq] at this
      simp only [List.getElem_ofFn]
      rw [this]
      simp [List.getD, hl, hk]
  have hcard : Nat.card {f // Leads n p f} = ∏ k : Fin n, (2 ^ 32 / (n - k) + if js.getD k 0 < 2 ^ 32 % (n - k) then 1 else 0) := by
    rw [Nat.card_congr (Equiv.subtypeEquivRight hset), Nat.card_congr (Equiv.subtypePiEquivPi (p := fun (k : Fin n) (w : Fin (2 ^ 32)) =>
      decide (beNat (be32 w) % (n - k) = js.getD k 0) = true)), Nat.card_pi]
    refine Finset.prod_congr rfl fun k _ => ?_
    rw [card_words (2 ^ 32) (fun w => decide (beNat (be32 w) % (n - k) = js.getD k 0))]
    exact C15_modulo_bias (n - k) (js.getD k 0) (by omega) (hlt' k)
  have hfac : n.factorial = ∏ k : Fin n, (n - k) := by
    rw [← Finset.prod_range_add_one_eq_factorial, ← Finset.prod_range_reflect, Finset.prod_range]
    refine Finset.prod_congr rfl fun k _ => by omega
  have hrefl : ∀ g : Nat → Nat, ∏ m ∈ range n, g m = ∏ k : Fin n, g (n - 1 - k) := by
    intro g
    rw [← Finset.prod_range_reflect, Finset.prod_range]
  have hbound : ∀ k : Fin n, 2 ^ 32 - (n - 1 - k) ≤ (n - k) * (2 ^ 32 / (n - k) + if js.getD k 0 < 2 ^ 32 % (n - k) then 1 else 0) ∧
      (n - k) * (2 ^ 32 / (n - k) + if js.getD k 0 < 2 ^ 32 % (n - k) then 1 else 0) ≤ 2 ^ 32 + (n - 1 - k) := by
    intro k
    have hk := k.2
    generalize hN : 2 ^ 32 = N
    have hd := Nat.div_add_mod N (n - k)
    have hm := Nat.mod_lt N (show n - k > 0 by omega)
    rw [Nat.mul_add]
    split <;> constructor <;> omega
  rw [hcard, hfac, ← Finset.prod_mul_distrib, hrefl, hrefl]
  refine ⟨Finset.prod_le_prod' fun k _ => (hbound k).1, Finset.prod_le_prod' fun k _ => (hbound k).2, ?_, ?_⟩
  · refine Finset.prod_pos fun k _ => ?_
    have : 0 < 2 ^ 32 / (n - k.1) := Nat.div_pos (by omega) (by have := k.2; omega)
    omega
  · rintro f p' ⟨s, h⟩ ⟨s', h'⟩
    rw [h] at h'; cases h'; rfl

/-- For three elements: each of the six orders has between 2^32·(2^32-1)·(2^32-2)/6 and 2^32·(2^32+1)·(2^32+2)/6 sequences. -/
example : ∏ m ∈ range 3, (2 ^ 32 - m) ≤ Nat.factorial 3 * Nat.card {f // Leads 3 [2, 0, 1] f} :=
  (C15_orders_nearly_uniform 3 (by omega) [2, 0, 1] (by decide)).1

end Resmix.Shuffle
