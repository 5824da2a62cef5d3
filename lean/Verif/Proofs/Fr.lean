import Mathlib.NumberTheory.LucasPrimality
import Mathlib.Tactic.NormNum.Prime
import Verif.Model.Fr
set_option autoImplicit false
namespace Resmix

/-- Square-and-multiply, for the kernel to evaluate. -/
def powMod (m : Nat) : Nat → Nat → Nat → Nat
  | 0, _, _ => 1 % m
  | f + 1, a, e =>
    if e = 0 then 1 % m
    else
      let h := powMod m f (a * a % m) (e / 2)
      if e % 2 = 1 then a * h % m else h

theorem powMod_eq (m f a e : Nat) (h : e < 2 ^ f) : powMod m f a e = a ^ e % m := by
  induction f generalizing a e with
  | zero =>
    have : e = 0 := by simpa using h
    subst this; simp [powMod]
  | succ f ih =>
    unfold powMod
    split
    · next h0 => subst h0; simp
    · have h2 : e / 2 < 2 ^ f := by
        rw [Nat.div_lt_iff_lt_mul (by norm_num)]; rw [Nat.pow_succ] at h; exact h
      have ih' := ih (a * a % m) (e / 2) h2
      have key : (a * a % m) ^ (e / 2) % m = a ^ (2 * (e / 2)) % m := by
        rw [← Nat.pow_mod, ← pow_two, ← pow_mul]
      simp only [ih', key]
      split
      · next ho =>
        conv_rhs => rw [show e = 2 * (e / 2) + 1 by omega, pow_succ, Nat.mul_comm]
        rw [Nat.mul_mod, Nat.mod_mod, ← Nat.mul_mod]
      · next ho =>
        conv_rhs => rw [show e = 2 * (e / 2) by omega]

def blsFactors : List Nat :=
  [2, 3, 11, 19, 10177, 125527, 859267, 906349, 2508409, 2529403, 52437899, 254760293]

theorem blsOrder_sub_one : blsOrder - 1 =
    2^32 * 3 * 11 * 19 * 10177 * 125527 * 859267 * 906349^2 * 2508409 * 2529403 * 52437899 * 254760293^2 := by
  decide +kernel

theorem pow7 (e : Nat) (h : e < 2 ^ 256) : ((7 : Fr) ^ e = 1) ↔ powMod blsOrder 256 7 e = 1 := by
  rw [powMod_eq _ _ _ _ h]
  have h1 : ((7 ^ e : Nat) : Fr) = ((1 : Nat) : Fr) ↔ 7 ^ e % blsOrder = 1 % blsOrder := ZMod.natCast_eq_natCast_iff' _ _ _
  have h2 : 1 % blsOrder = 1 := by decide +kernel
  rw [h2] at h1
  simpa using h1

set_option maxRecDepth 100000 in
theorem blsOrder_prime : blsOrder.Prime := by
  refine lucas_primality blsOrder (7 : Fr) ?_ ?_
  · rw [pow7 _ (by decide +kernel)]; decide +kernel
  · intro q hq hd
    rw [blsOrder_sub_one] at hd
    have hmem : q ∈ blsFactors := by
      have base : ∀ p : Nat, p.Prime → q ∣ p → q = p := fun p hp h => (Nat.prime_dvd_prime_iff_eq hq hp).1 h
      have p1 : Nat.Prime 10177 := by norm_num
      have p2 : Nat.Prime 125527 := by norm_num
      have p3 : Nat.Prime 859267 := by norm_num
      have p4 : Nat.Prime 906349 := by norm_num
      have p5 : Nat.Prime 2508409 := by norm_num
      have p6 : Nat.Prime 2529403 := by norm_num
      have p7 : Nat.Prime 52437899 := by norm_num
      have p8 : Nat.Prime 254760293 := by norm_num
      rcases (hq.dvd_mul).1 hd with hd | hd
      · rcases (hq.dvd_mul).1 hd with hd | hd
        · rcases (hq.dvd_mul).1 hd with hd | hd
          · rcases (hq.dvd_mul).1 hd with hd | hd
            · rcases (hq.dvd_mul).1 hd with hd | hd
              · rcases (hq.dvd_mul).1 hd with hd | hd
                · rcases (hq.dvd_mul).1 hd with hd | hd
                  · rcases (hq.dvd_mul).1 hd with hd | hd
                    · rcases (hq.dvd_mul).1 hd with hd | hd
                      · rcases (hq.dvd_mul).1 hd with hd | hd
                        · rcases (hq.dvd_mul).1 hd with hd | hd
                          · have := base 2 (by norm_num) (hq.dvd_of_dvd_pow hd); subst this; decide
                          · have := base 3 (by norm_num) hd; subst this; decide
                        · have := base 11 (by norm_num) hd; subst this; decide
                      · have := base 19 (by norm_num) hd; subst this; decide
                    · have := base _ p1 hd; subst this; decide
                  · have := base _ p2 hd; subst this; decide
                · have := base _ p3 hd; subst this; decide
              · have := base _ p4 (hq.dvd_of_dvd_pow hd); subst this; decide
            · have := base _ p5 hd; subst this; decide
          · have := base _ p6 hd; subst this; decide
        · have := base _ p7 hd; subst this; decide
      · have := base _ p8 (hq.dvd_of_dvd_pow hd); subst this; decide
    have hall : ∀ q ∈ blsFactors, (blsOrder - 1) / q < 2 ^ 256 ∧ powMod blsOrder 256 7 ((blsOrder - 1) / q) ≠ 1 := by
      decide +kernel
    obtain ⟨hlt, hne⟩ := hall q hmem
    rw [Ne, pow7 _ hlt]; exact hne

instance : Fact blsOrder.Prime := ⟨blsOrder_prime⟩

end Resmix
