import Verif.Model.Strings
namespace Resmix

theorem decAux_fuel (f n : Nat) (h : n < f) : decAux f n = decAux (n + 1) n := by
  induction n using Nat.strongRecOn generalizing f with
  | _ n ih =>
    cases f with
    | zero => omega
    | succ f =>
      simp only [decAux]
      split
      · rfl
      · rw [ih (n / 10) (by omega) f (by omega), ih (n / 10) (by omega) n (by omega)]

theorem dec_eq (n : Nat) :
    dec n = if n < 10 then [UInt8.ofNat (48 + n)] else dec (n / 10) ++ [UInt8.ofNat (48 + n % 10)] := by
  show decAux (n + 1) n = _
  simp only [decAux]
  split
  · rfl
  · rw [decAux_fuel n (n / 10) (by omega)]; rfl

/-- Decimal value of a digit string. -/
def undec (s : Str) : Nat := s.foldl (fun acc b => acc * 10 + (b.toNat - 48)) 0

theorem undec_append (a : Str) (b : UInt8) : undec (a ++ [b]) = undec a * 10 + (b.toNat - 48) := by
  simp [undec]

theorem digit_toNat (d : Nat) (h : d < 10) : (UInt8.ofNat (48 + d)).toNat = 48 + d := by
  simp; omega

theorem undec_dec (n : Nat) : undec (dec n) = n := by
  induction n using Nat.strongRecOn with
  | _ n ih =>
    rw [dec_eq]
    split
    · next h => simp [undec]; omega
    · next h =>
      rw [undec_append, ih (n / 10) (by omega), digit_toNat _ (Nat.mod_lt _ (by omega))]
      omega

theorem dec_inj {a b : Nat} (h : dec a = dec b) : a = b := by
  rw [← undec_dec a, h, undec_dec]

theorem dec_digits (n : Nat) : ∀ b ∈ dec n, 48 ≤ b.toNat ∧ b.toNat ≤ 57 := by
  induction n using Nat.strongRecOn with
  | _ n ih =>
    rw [dec_eq]
    split
    · next h =>
      intro b hb
      simp only [List.mem_singleton] at hb
      subst hb; rw [digit_toNat n h]; omega
    · next h =>
      intro b hb
      rcases List.mem_append.1 hb with hb | hb
      · exact ih _ (by omega) b hb
      · simp only [List.mem_singleton] at hb
        subst hb; rw [digit_toNat _ (Nat.mod_lt _ (by omega))]; omega

theorem dec_ne_nil (n : Nat) : dec n ≠ [] := by
  rw [dec_eq]; split <;> simp

/-- Splitting at the first separator is unambiguous. -/
theorem append_sep_inj {α} {s : α} {a a' b b' : List α} (ha : s ∉ a) (ha' : s ∉ a')
    (h : a ++ s :: b = a' ++ s :: b') : a = a' ∧ b = b' := by
  induction a generalizing a' with
  | nil =>
    cases a' with
    | nil => simpa using h
    | cons x a' => simp at h; exact absurd (h.1 ▸ List.mem_cons_self) ha'
  | cons x a ih =>
    cases a' with
    | nil => simp at h; exact absurd (h.1 ▸ List.mem_cons_self) ha
    | cons y a' =>
      simp only [List.cons_append, List.cons.injEq] at h
      have := ih (fun hh => ha (List.mem_cons_of_mem _ hh)) (fun hh => ha' (List.mem_cons_of_mem _ hh)) h.2
      exact ⟨by rw [h.1, this.1], this.2⟩

theorem comma_not_mem_dec (n : Nat) : (44 : UInt8) ∉ dec n := by
  intro h; have := dec_digits n _ h; simp at this

theorem mixNameOf_inj {l p l' p' : Nat} (h : mixNameOf l p = mixNameOf l' p') : l = l' ∧ p = p' := by
  simp only [mixNameOf, List.append_assoc, List.cons_append, List.nil_append, List.cons.injEq, true_and] at h
  obtain ⟨h1, h2⟩ := append_sep_inj (comma_not_mem_dec l) (comma_not_mem_dec l') h
  exact ⟨dec_inj h1, dec_inj (List.append_cancel_right h2)⟩

theorem mixNameOf_ne_genesis (l p : Nat) : mixNameOf l p ≠ genesisName := by
  simp [mixNameOf, genesisName]

end Resmix
