import Mathlib.Tactic.Positivity
import Mathlib.Tactic.Linarith
import Mathlib.Tactic.NormNum
import Mathlib.Algebra.Order.Floor.Ring
import Verif.Model.Chain
set_option autoImplicit false
namespace Resmix.Onion

theorem isFloat_nat (k : Nat) (h : k ≤ 2 ^ 53) : IsFloat (k : ℝ) :=
  ⟨k, 0, by rw [abs_of_nonneg (by positivity)]; exact_mod_cast h, by simp⟩

/-- The float just above a small integer that is needed below. -/
theorem isFloat_above (j : Nat) (h : j + 1 ≤ 2 ^ 26) : IsFloat ((j : ℝ) + 1 / 2 ^ 26) := by
  refine ⟨(j * 2 ^ 26 + 1 : ℕ), -26, ?_, ?_⟩
  · rw [abs_of_nonneg (by positivity)]
    have : j * 2 ^ 26 + 1 ≤ 2 ^ 53 := by omega
    exact_mod_cast this
  · push_cast
    rw [zpow_neg]
    norm_num
    ring

/-- The rounded square root has the same ceiling as the exact one. -/
theorem ceil_rounded {n : Nat} (hn : 1 ≤ n) (hb : n ≤ 2 ^ 50) {x : ℝ} (h : RoundsTo x (Real.sqrt (2 * n))) :
    ⌈x⌉.toNat = ⌈Real.sqrt (2 * n)⌉₊ := by
  have hn1 : (1 : ℝ) ≤ n := by exact_mod_cast hn
  have hsq : Real.sqrt (2 * n) * Real.sqrt (2 * n) = 2 * n := Real.mul_self_sqrt (by positivity)
  generalize hs : Real.sqrt (2 * n) = s at *
  have hs0 : 0 ≤ s := by rw [← hs]; exact Real.sqrt_nonneg _
  have hs1 : 1 ≤ s := by nlinarith
  obtain ⟨j, hj⟩ : ∃ j, ⌈s⌉₊ = j + 1 := ⟨⌈s⌉₊ - 1, by have := Nat.ceil_pos.2 (by linarith : 0 < s); omega⟩
  have hjs : (j : ℝ) < s := by
    have := Nat.lt_ceil.1 (show j < ⌈s⌉₊ by omega)
    exact this
  have hsk : s ≤ j + 1 := by
    have := Nat.le_ceil s
    rw [hj] at this; push_cast at this; exact this
  have hj26 : j + 1 ≤ 2 ^ 26 := by
    have hb' : (n : ℝ) ≤ 2 ^ 50 := by exact_mod_cast hb
    have : (j : ℝ) * j < 2 ^ 51 := by
      have hj0 : (0 : ℝ) ≤ j := by positivity
      nlinarith
    have hjj : j * j < 2 ^ 51 := by exact_mod_cast this
    by_contra hc
    have : 2 ^ 26 ≤ j := by omega
    have := Nat.mul_le_mul this this
    omega
  have hx1 : x ≤ j + 1 := by
    have := h.2 _ (isFloat_nat (j + 1) (by omega))
    push_cast at this
    rw [abs_of_nonneg (by linarith : (0 : ℝ) ≤ j + 1 - s)] at this
    have := le_abs_self (x - s)
    linarith
  have hx2 : (j : ℝ) < x := by
    by_contra hc
    rw [not_lt] at hc
    have h1 := h.2 _ (isFloat_above j hj26)
    have h2 := neg_abs_le (x - s)
    -- s is at least sqrt(j^2+1)
    have h3 : (j : ℝ) * j + 1 ≤ 2 * n := by
      have : (j : ℝ) * j < 2 * n := by
        have hj0 : (0 : ℝ) ≤ j := by positivity
        nlinarith
      have : j * j < 2 * n := by exact_mod_cast this
      exact_mod_cast this
    have hjb : (j : ℝ) + 1 ≤ 2 ^ 26 := by exact_mod_cast hj26
    have h4 : (j : ℝ) + 1 / 2 ^ 27 < s := by
      by_contra hle
      rw [not_lt] at hle
      have : s * s ≤ ((j : ℝ) + 1 / 2 ^ 27) * ((j : ℝ) + 1 / 2 ^ 27) := by
        exact mul_self_le_mul_self hs0 hle
      have e : ((j : ℝ) + 1 / 2 ^ 27) * ((j : ℝ) + 1 / 2 ^ 27) = j * j + j * (1 / 2 ^ 26) + 1 / 2 ^ 54 := by ring
      have e2 : (j : ℝ) * (1 / 2 ^ 26) ≤ (2 ^ 26 - 1) * (1 / 2 ^ 26) := by
        apply mul_le_mul_of_nonneg_right (by linarith) (by positivity)
      have e3 : ((2 : ℝ) ^ 26 - 1) * (1 / 2 ^ 26) + 1 / 2 ^ 54 < 1 := by norm_num
      linarith
    have h5 : |(j : ℝ) + 1 / 2 ^ 26 - s| < s - j := by
      rw [abs_lt]
      constructor
      · have : (0 : ℝ) < 1 / 2 ^ 26 := by positivity
        linarith
      · have : (1 : ℝ) / 2 ^ 26 = 1 / 2 ^ 27 + 1 / 2 ^ 27 := by norm_num
        linarith
    linarith
  have hc : ⌈x⌉ = (j : ℤ) + 1 := by
    rw [Int.ceil_eq_iff]
    push_cast
    constructor
    · linarith
    · exact hx1
  rw [hc, hj]
  omega

theorem draws_length (S : Sha3) (n k : Nat) (cur : Bytes) : (draws S n k cur).length = k := by
  induction k generalizing cur with
  | zero => rfl
  | succ k ih => simp [draws, ih]

theorem draws_lt (S : Sha3) (n k : Nat) (cur : Bytes) (hn : 0 < n) : ∀ c ∈ draws S n k cur, c < n := by
  induction k generalizing cur with
  | zero => intro c hc; cases hc
  | succ k ih =>
    intro c hc
    rcases List.mem_cons.1 hc with rfl | hc
    · exact Nat.mod_lt _ hn
    · exact ih _ c hc

end Resmix.Onion
