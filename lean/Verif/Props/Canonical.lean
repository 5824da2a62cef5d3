import Verif.Proofs.Marshal
set_option autoImplicit false
/-
C147: which strings of bytes are accepted as the same polynomial or the same share.
-/
namespace Resmix.Tibe

theorem beNat_lt_pow (b : Bytes) : beNat b < 256 ^ b.length := by
  induction b using List.reverseRecOn with
  | nil => simp [beNat]
  | append_singleton l x ih =>
    rw [beNat_append, List.length_append, List.length_singleton, pow_succ]
    have hx : beNat [x] < 256 := by simpa [beNat] using x.toNat_lt
    omega

theorem beNat_inj {a b : Bytes} (hl : a.length = b.length) (h : beNat a = beNat b) : a = b := by
  induction a using List.reverseRecOn generalizing b with
  | nil => exact (List.length_eq_zero_iff.1 (by simpa using hl.symm)).symm
  | append_singleton l x ih =>
    rcases List.eq_nil_or_concat b with rfl | ⟨l', y, rfl⟩
    · simp at hl
    rw [List.concat_eq_append] at hl h ⊢
    rw [beNat_append, beNat_append] at h
    have hx : beNat [x] = x.toNat := by simp [beNat]
    have hy : beNat [y] = y.toNat := by simp [beNat]
    have h1 := x.toNat_lt
    have h2 := y.toNat_lt
    simp only [List.length_singleton, pow_one, hx, hy] at h
    rw [ih (b := l') (by simpa using hl) (by omega), show x = y from UInt8.toNat_inj.1 (by omega)]

/-- C147 fails for polynomials: `Poly.SetBytes` reduces every coefficient modulo the order of the group, so every non-empty polynomial is also read from a string of the same length
that is not its serialisation. -/
theorem C147_poly_refuted (p : Poly) (h : p.coefs.length < 2 ^ 32) (hne : p.coefs ≠ []) :
    ∃ b, b ≠ p.marshal ∧ b.length = p.marshal.length ∧ Poly.setBytes b = .ok p := by
  obtain ⟨cs⟩ := p
  cases cs with
  | nil => exact absurd rfl hne
  | cons x cs =>
  have hlt : x.val + blsOrder < 256 ^ 32 := lt_trans (Nat.add_lt_add_right (fr_val_lt x) _) (by decide +kernel)
  have hpos : 0 < blsOrder := by decide +kernel
  have hbe : beNat (beBytes 32 (x.val + blsOrder)) = x.val + blsOrder := by rw [beNat_beBytes, Nat.mod_eq_of_lt hlt]
  have hval : scalarSetBytes (beBytes 32 (x.val + blsOrder)) = x := by
    unfold scalarSetBytes
    rw [hbe, Nat.cast_add, ZMod.natCast_self, add_zero]
    exact ZMod.natCast_zmod_val x
  refine ⟨be32 (x :: cs).length ++ (beBytes 32 (x.val + blsOrder) ++ cs.flatMap scalarBytes), ?_, ?_, ?_⟩
  · intro he
    unfold Poly.marshal at he
    rw [List.flatMap_cons] at he
    have h1 := List.append_cancel_left he
    have h2 := (List.append_inj h1 (by rw [beBytes_length, scalarBytes_length])).1
    have h3 := congrArg beNat h2
    rw [hbe, beNat_scalarBytes] at h3
    omega
  · simp [Poly.marshal, beBytes_length]
  · have hr := readScalars_flatMap cs []
    rw [List.append_nil] at hr
    have hb32 : (beBytes 32 (x.val + blsOrder)).length = scalarSize := beBytes_length _ _
    unfold Poly.setBytes
    rw [if_neg (by simp), take4_be32 _ h, drop4_be32]
    simp only
    rw [if_neg (by simp [flatMap_length _ _ _ scalarBytes_length, scalarSize, beBytes_length]; omega)]
    rw [List.length_cons, Poly.readScalars, ← hb32, List.take_left, List.drop_left, hr, hval]

/-- C147, what holds: shares are read from one string of each length only; a share's scalar that is not below the order of the group is refused. -/
theorem C147_share_partial (b b' : Bytes) (s : PolyShare) (hl : b.length = b'.length) (h : PolyShare.setBytes b = .ok s) (h' : PolyShare.setBytes b' = .ok s) :
    b = b' ∧ (b.length = 36 → b = s.marshal) ∧ beNat (b.drop 4) < blsOrder := by
  have key : ∀ b : Bytes, PolyShare.setBytes b = .ok s → 36 ≤ b.length ∧ beNat (b.drop 4) = s.value.val ∧ ((beNat (b.take 4) : Nat) : Int) = s.index := by
    intro b hb
    unfold PolyShare.setBytes at hb
    split at hb
    · cases hb
    next hlen =>
    unfold scalarUnmarshal at hb
    split at hb
    · cases hb
    split at hb
    · cases hb
    next hlt =>
    injection hb with hb
    subst hb
    refine ⟨by simp only [scalarSize] at hlen; omega, ?_, rfl⟩
    show _ = (scalarSetBytes (b.drop 4)).val
    unfold scalarSetBytes
    rw [ZMod.val_natCast, Nat.mod_eq_of_lt (by omega)]
  have hinj : ∀ c c' : Bytes, c.length = c'.length → PolyShare.setBytes c = .ok s → PolyShare.setBytes c' = .ok s → c = c' := by
    intro c c' hl h h'
    obtain ⟨a1, a2, a3⟩ := key c h
    obtain ⟨b1, b2, b3⟩ := key c' h'
    have h1 : c.take 4 = c'.take 4 := beNat_inj (by simp [hl]) (by exact_mod_cast a3.trans b3.symm)
    have h2 : c.drop 4 = c'.drop 4 := beNat_inj (by simp [hl]) (a2.trans b2.symm)
    rw [← List.take_append_drop 4 c, ← List.take_append_drop 4 c', h1, h2]
  obtain ⟨a1, a2, a3⟩ := key b h
  refine ⟨hinj b b' hl h h', fun h36 => ?_, by rw [a2]; exact fr_val_lt _⟩
  have hi := beNat_lt_pow (b.take 4)
  rw [List.length_take, min_eq_left (by omega)] at hi
  refine hinj b _ (by simp [PolyShare.marshal, h36]) h (share_roundtrip s (by rw [← a3]; omega) (by rw [← a3]; exact_mod_cast lt_of_lt_of_eq hi (by norm_num)))

/-- The case of the hypotheses: a share's own serialisation is read; the same share with the order added to its scalar is refused; for a polynomial it is read. -/
example : PolyShare.setBytes (PolyShare.mk 7 3).marshal = .ok ⟨7, 3⟩ ∧ PolyShare.setBytes (be32 7 ++ beBytes 32 (blsOrder + 3)) ≠ .ok ⟨7, 3⟩ := by
  have h1 : PolyShare.setBytes (PolyShare.mk 7 3).marshal = .ok ⟨7, 3⟩ := share_roundtrip ⟨7, 3⟩ (by decide) (by decide)
  refine ⟨h1, fun h => ?_⟩
  have h2 := (C147_share_partial _ _ _ (by simp [PolyShare.marshal, beBytes_length]) h h1).2.2
  rw [drop4_be32, beNat_beBytes, Nat.mod_eq_of_lt (by decide +kernel)] at h2
  omega

example : ∃ b, b ≠ (Poly.mk [5, 3]).marshal ∧ Poly.setBytes b = .ok ⟨[5, 3]⟩ := by
  obtain ⟨b, h1, _, h2⟩ := C147_poly_refuted ⟨[5, 3]⟩ (by decide) (by simp)
  exact ⟨b, h1, h2⟩

end Resmix.Tibe
