import Mathlib.Data.Int.CardIntervalMod
import Mathlib.Data.Fintype.CardEmbedding
import Mathlib.Analysis.Complex.ExponentialBounds
import Verif.Props.Generate
set_option autoImplicit false
/-
C142: which chains the copies of a message take (messages.go:259-275).
-/
namespace Resmix.Onion
open Tibe

theorem draws_getElem? (S : Sha3) (n : Nat) : ∀ (k : Nat) (cur : Bytes) (i : Nat), i < k →
    (draws S n k cur)[i]? = some (beNat ((S.sum^[i] cur).take 8) % n) := by
  intro k
  induction k with
  | zero => intro _ _ h; omega
  | succ k ih =>
    intro cur i hi
    cases i with
    | zero => rfl
    | succ i =>
      show (draws S n k (S.sum cur))[i]? = _
      rw [ih _ i (by omega), Function.iterate_succ_apply]

/-- C142 fails: if there is one chain, then every message is sent twice through it. -/
theorem C142_one_chain_refuted (S : Sha3) (msg : Bytes) (res : Go (List Nat)) (h : CalculateChain S 1 msg res) : res = .ok [0, 0] := by
  obtain ⟨chains, rfl, hlen, hlt⟩ := C20_chain_count S 1 le_rfl (by norm_num) msg res h
  have h2 : ⌈Real.sqrt (2 * ((1 : ℕ) : ℝ))⌉₊ = 2 := by
    rw [Nat.ceil_eq_iff (by norm_num)]
    constructor
    · apply Real.lt_sqrt_of_sq_lt; norm_num
    · apply Real.sqrt_le_iff.2; norm_num
  rw [h2] at hlen
  match chains, hlen with
  | [a, b], _ =>
    have ha := hlt a (by simp)
    have hb := hlt b (by simp)
    have : a = 0 := by omega
    have : b = 0 := by omega
    subst_vars; rfl

/-- C142, what the choice is: the chain of copy `i` is read off the first eight bytes of the message hashed `i + 1` times, modulo the number of chains. Nothing else goes into
it: whoever knows the message knows all its routes. Missing: C142_one_chain_refuted, C142_repeats_refuted. -/
theorem C142_choice_partial (S : Sha3) (n : Nat) (hn : 1 ≤ n) (hb : n ≤ 2 ^ 50) (msg : Bytes) (res : Go (List Nat)) (h : CalculateChain S n msg res) :
    ∃ chains, res = .ok chains ∧ chains.length = ⌈Real.sqrt (2 * n)⌉₊ ∧
      ∀ i, i < chains.length → chains[i]? = some (beNat ((S.sum^[i + 1] msg).take 8) % n) := by
  obtain ⟨chains, rfl, hlen, _⟩ := C20_chain_count S n hn hb msg res h
  refine ⟨chains, rfl, hlen, ?_⟩
  obtain ⟨reps, _, he⟩ := h
  unfold calculateChain at he
  rw [if_neg (by omega)] at he
  injection he with he
  subst he
  intro i hi
  rw [draws_length] at hi
  rw [draws_getElem? S n _ _ i hi, Function.iterate_succ_apply]

/-- C142, the choice of one copy is even: of the 2^64 values of the eight bytes, each chain is taken by 2^64 / n of them, or by one more. -/
theorem C142_even_partial (n : Nat) (hn : 1 ≤ n) (c : Nat) (hc : c < n) :
    (2 ^ 64 / n ≤ ((List.range (2 ^ 64)).countP fun w => w % n == c)) ∧ ((List.range (2 ^ 64)).countP fun w => w % n == c) ≤ 2 ^ 64 / n + 1 := by
  have h := Nat.count_modEq_card (2 ^ 64) (r := n) hn c
  have he : (List.range (2 ^ 64)).countP (fun w => w % n == c) = (2 ^ 64).count (· ≡ c [MOD n]) := by
    unfold Nat.count
    apply List.countP_congr
    intro w _
    simp [Nat.ModEq, Nat.mod_eq_of_lt hc]
  rw [he, h]
  split <;> omega

theorem prod_exp (n : ℕ) (hn : 1 ≤ n) : ∀ k : ℕ, ((n.descFactorial k : ℕ) : ℝ) ≤ (n : ℝ) ^ k * Real.exp (-((k : ℝ) * (k - 1) / (2 * n))) := by
  have hnR : (0 : ℝ) < n := by exact_mod_cast hn
  intro k
  induction k with
  | zero => simp
  | succ k ih =>
    rw [Nat.descFactorial_succ, Nat.cast_mul]
    have h1 : ((n - k : ℕ) : ℝ) ≤ n * Real.exp (-(k / n)) := by
      by_cases hk : k ≤ n
      · rw [Nat.cast_sub hk]
        have := Real.add_one_le_exp (-((k : ℝ) / n))
        calc (n : ℝ) - k = n * (-((k : ℝ) / n) + 1) := by field_simp; ring
          _ ≤ _ := by gcongr
      · rw [Nat.sub_eq_zero_of_le (by omega)]
        simp; positivity
    calc ((n - k : ℕ) : ℝ) * (n.descFactorial k : ℝ) ≤ (n * Real.exp (-(k / n))) * ((n : ℝ) ^ k * Real.exp (-((k : ℝ) * (k - 1) / (2 * n)))) := by
          gcongr
      _ = (n : ℝ) ^ (k + 1) * (Real.exp (-(k / n)) * Real.exp (-((k : ℝ) * (k - 1) / (2 * n)))) := by ring
      _ = _ := by
          rw [← Real.exp_add]
          congr 2
          push_cast
          field_simp
          ring

theorem exp_half {x : ℝ} (h : Real.log 2 ≤ x) : Real.exp (-x) ≤ 1 / 2 := by
  rw [show (1 : ℝ) / 2 = Real.exp (-Real.log 2) by rw [Real.exp_neg, Real.exp_log (by norm_num)]; norm_num]
  exact Real.exp_le_exp.2 (by linarith)

/-- C142 fails for every number of chains: ⌈√(2n)⌉ draws are too many to be distinct. At least half of all sequences of draws take some chain twice. -/
theorem C142_repeats_refuted (n : Nat) (hn : 1 ≤ n) :
    Fintype.card (Fin ⌈Real.sqrt (2 * n)⌉₊ → Fin n) ≤ 2 * Fintype.card {f : Fin ⌈Real.sqrt (2 * n)⌉₊ → Fin n // ¬ Function.Injective f} := by
  set k := ⌈Real.sqrt (2 * n)⌉₊ with hk
  have hcard : Fintype.card {f : Fin k → Fin n // ¬ Function.Injective f} = n ^ k - n.descFactorial k := by
    rw [Fintype.card_subtype_compl, Fintype.card_congr (Equiv.subtypeInjectiveEquivEmbedding (Fin k) (Fin n)), Fintype.card_embedding_eq]
    simp
  have hle : 2 * n.descFactorial k ≤ n ^ k := by
    have hnR : (0 : ℝ) < n := by exact_mod_cast hn
    have hs : Real.sqrt (2 * n) ≤ k := Nat.le_ceil _
    have hsq : Real.sqrt (2 * n) * Real.sqrt (2 * n) = 2 * n := Real.mul_self_sqrt (by positivity)
    have hk1 : 1 ≤ k := by
      rw [hk, Nat.one_le_ceil_iff]; positivity
    by_cases h6 : 6 ≤ n
    · have h6R : (6 : ℝ) ≤ n := by exact_mod_cast h6
      have hs3 : (3.4 : ℝ) ≤ Real.sqrt (2 * n) := by
        apply Real.le_sqrt_of_sq_le; norm_num; linarith
      have hx : Real.log 2 ≤ (k : ℝ) * (k - 1) / (2 * n) := by
        have := Real.log_two_lt_d9
        rw [le_div_iff₀ (by positivity)]
        have h1 : Real.sqrt (2 * n) * (Real.sqrt (2 * n) - 1) ≤ (k : ℝ) * (k - 1) := by nlinarith
        nlinarith
      have := (prod_exp n hn k).trans (mul_le_mul_of_nonneg_left (exp_half hx) (by positivity))
      have : (2 : ℝ) * (n.descFactorial k : ℝ) ≤ (n : ℝ) ^ k := by linarith
      exact_mod_cast this
    · have hval : ∀ m j : ℕ, (j : ℝ) < Real.sqrt (2 * m) → Real.sqrt (2 * m) ≤ ((j + 1 : ℕ) : ℝ) → ⌈Real.sqrt (2 * m)⌉₊ = j + 1 := by
        intro m j h1 h2
        rw [Nat.ceil_eq_iff (by omega)]
        exact ⟨by simpa using h1, h2⟩
      have hb : ∀ m j : ℕ, j ^ 2 < 2 * m → 2 * m ≤ (j + 1) ^ 2 → ⌈Real.sqrt (2 * m)⌉₊ = j + 1 := by
        intro m j h1 h2
        apply hval
        · apply Real.lt_sqrt_of_sq_lt; exact_mod_cast h1
        · apply Real.sqrt_le_iff.2; exact ⟨by positivity, by exact_mod_cast h2⟩
      rcases (by omega : n = 1 ∨ n = 2 ∨ n = 3 ∨ n = 4 ∨ n = 5) with h | h | h | h | h
      · have : k = 2 := by rw [hk, h]; exact hb 1 1 (by norm_num) (by norm_num)
        rw [this, h]; decide
      · have : k = 2 := by rw [hk, h]; exact hb 2 1 (by norm_num) (by norm_num)
        rw [this, h]; decide
      · have : k = 3 := by rw [hk, h]; exact hb 3 2 (by norm_num) (by norm_num)
        rw [this, h]; decide
      · have : k = 3 := by rw [hk, h]; exact hb 4 2 (by norm_num) (by norm_num)
        rw [this, h]; decide
      · have : k = 4 := by rw [hk, h]; exact hb 5 3 (by norm_num) (by norm_num)
        rw [this, h]; decide
  rw [hcard, Fintype.card_fun, Fintype.card_fin, Fintype.card_fin]
  omega

theorem roundsTo_exists {y : ℝ} (h1 : 1 + 1 / 2 ^ 52 ≤ y) (h2 : y ≤ 2 - 1 / 2 ^ 52) : ∃ x, RoundsTo x y := by
  have hmul : ∀ z : ℤ, |(z : ℝ) * (2 : ℝ) ^ (-52 : ℤ) - y| = |y * 2 ^ 52 - z| * (2 : ℝ) ^ (-52 : ℤ) := by
    intro z
    rw [abs_sub_comm, ← abs_of_pos (show (0 : ℝ) < (2 : ℝ) ^ (-52 : ℤ) by positivity), ← abs_mul, abs_of_pos (show (0 : ℝ) < (2 : ℝ) ^ (-52 : ℤ) by positivity)]
    congr 1
    rw [zpow_neg]; norm_num; ring
  have hr := abs_sub_round (y * 2 ^ 52)
  have hr' := abs_le.1 hr
  refine ⟨(round (y * 2 ^ 52) : ℤ) * (2 : ℝ) ^ (-52 : ℤ), ⟨round (y * 2 ^ 52), -52, ?_, rfl⟩, ?_⟩
  · have h3 : ((round (y * 2 ^ 52) : ℤ) : ℝ) ≤ 2 ^ 53 := by norm_num at *; linarith
    have h4 : (-(2 ^ 53) : ℝ) ≤ ((round (y * 2 ^ 52) : ℤ) : ℝ) := by norm_num at *; linarith
    rw [abs_le]
    exact ⟨by exact_mod_cast h4, by exact_mod_cast h3⟩
  · rintro z ⟨m, e, hm, rfl⟩
    rw [hmul]
    by_cases he : -52 ≤ e
    · obtain ⟨j, rfl⟩ : ∃ j : ℕ, e = j + -52 := ⟨(e + 52).toNat, by omega⟩
      rw [zpow_add₀ (by norm_num), ← mul_assoc, zpow_natCast]
      have := hmul (m * 2 ^ j)
      push_cast at this
      rw [this]
      have h5 := round_le (y * 2 ^ 52) (m * 2 ^ j)
      push_cast at h5
      gcongr
    · have hz : (m : ℝ) * (2 : ℝ) ^ e ≤ 1 := by
        have hmR : (m : ℝ) ≤ 2 ^ 53 := by exact_mod_cast (abs_le.1 hm).2
        calc (m : ℝ) * (2 : ℝ) ^ e ≤ 2 ^ 53 * (2 : ℝ) ^ (-53 : ℤ) := by
              gcongr
              · norm_num
              · omega
          _ = 1 := by norm_num
      have h6 : |y * 2 ^ 52 - round (y * 2 ^ 52)| * (2 : ℝ) ^ (-52 : ℤ) ≤ 1 / 2 * (2 : ℝ) ^ (-52 : ℤ) := by gcongr
      have h7 : 1 / 2 * (2 : ℝ) ^ (-52 : ℤ) ≤ 1 / 2 ^ 52 := by norm_num
      have h8 : (1 : ℝ) / 2 ^ 52 ≤ |(m : ℝ) * (2 : ℝ) ^ e - y| := by
        rw [abs_sub_comm]
        exact le_trans (by linarith) (le_abs_self _)
      exact (h6.trans h7).trans h8

/-- With one chain calculateChain has a result, for every message. -/
example (S : Sha3) (msg : Bytes) : CalculateChain S 1 msg (.ok [0, 0]) := by
  have hlo : (1.4 : ℝ) ≤ Real.sqrt (2 * ((1 : ℕ) : ℝ)) := by apply Real.le_sqrt_of_sq_le; norm_num
  have hhi : Real.sqrt (2 * ((1 : ℕ) : ℝ)) ≤ 1.5 := by apply Real.sqrt_le_iff.2; norm_num
  obtain ⟨x, hx⟩ := roundsTo_exists (y := Real.sqrt (2 * ((1 : ℕ) : ℝ))) (by norm_num at *; linarith) (by norm_num at *; linarith)
  have h : CalculateChain S 1 msg (calculateChain S 1 ⌈x⌉.toNat msg) := ⟨_, ⟨x, hx, rfl⟩, rfl⟩
  rw [C142_one_chain_refuted S msg _ h] at h
  exact h

end Resmix.Onion
