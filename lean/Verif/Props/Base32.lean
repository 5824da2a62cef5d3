import Verif.Model.Base32
import Mathlib.Data.List.Basic
set_option autoImplicit false
/-
C65: digests as strings.
-/
namespace Resmix.Merkle

theorem b32Groups_lt (l : List Nat) (h : ∀ x ∈ l, x < 256) : ∀ v ∈ b32Groups l, v < 32 := by
  induction l using b32Groups.induct with
  | case1 a b c d e rest ih =>
    have ha := h a (by simp); have hb := h b (by simp); have hc := h c (by simp); have hd := h d (by simp); have he := h e (by simp)
    intro v hv
    simp only [b32Groups, List.mem_append, List.mem_cons, List.not_mem_nil, or_false] at hv
    rcases hv with (rfl | rfl | rfl | rfl | rfl | rfl | rfl | rfl) | hv
    any_goals omega
    exact ih (fun x hx => h x (by simp [hx])) v hv
  | case2 a b c d =>
    have ha := h a (by simp); have hb := h b (by simp); have hc := h c (by simp); have hd := h d (by simp)
    intro v hv
    simp only [b32Groups, List.mem_cons, List.not_mem_nil, or_false] at hv
    rcases hv with rfl | rfl | rfl | rfl | rfl | rfl | rfl <;> omega
  | case3 a b c =>
    have ha := h a (by simp); have hb := h b (by simp); have hc := h c (by simp)
    intro v hv
    simp only [b32Groups, List.mem_cons, List.not_mem_nil, or_false] at hv
    rcases hv with rfl | rfl | rfl | rfl | rfl <;> omega
  | case4 a b =>
    have ha := h a (by simp); have hb := h b (by simp)
    intro v hv
    simp only [b32Groups, List.mem_cons, List.not_mem_nil, or_false] at hv
    rcases hv with rfl | rfl | rfl | rfl <;> omega
  | case5 a =>
    have ha := h a (by simp)
    intro v hv
    simp only [b32Groups, List.mem_cons, List.not_mem_nil, or_false] at hv
    rcases hv with rfl | rfl <;> omega
  | case6 => simp [b32Groups]

theorem b32Bytes_groups (l : List Nat) (h : ∀ x ∈ l, x < 256) : b32Bytes (b32Groups l) = l := by
  induction l using b32Groups.induct with
  | case1 a b c d e rest ih =>
    have ha := h a (by simp); have hb := h b (by simp); have hc := h c (by simp); have hd := h d (by simp); have he := h e (by simp)
    simp only [b32Groups, List.cons_append, List.nil_append, b32Bytes, ih (fun x hx => h x (by simp [hx])), List.cons.injEq, and_true]
    refine ⟨?_, ?_, ?_, ?_, ?_⟩ <;> omega
  | case2 a b c d =>
    have ha := h a (by simp); have hb := h b (by simp); have hc := h c (by simp); have hd := h d (by simp)
    simp only [b32Groups, b32Bytes, List.cons.injEq, and_true]
    refine ⟨?_, ?_, ?_, ?_⟩ <;> omega
  | case3 a b c =>
    have ha := h a (by simp); have hb := h b (by simp); have hc := h c (by simp)
    simp only [b32Groups, b32Bytes, List.cons.injEq, and_true]
    refine ⟨?_, ?_, ?_⟩ <;> omega
  | case4 a b =>
    have ha := h a (by simp); have hb := h b (by simp)
    simp only [b32Groups, b32Bytes, List.cons.injEq, and_true]
    refine ⟨?_, ?_⟩ <;> omega
  | case5 a =>
    have ha := h a (by simp)
    simp only [b32Groups, b32Bytes, List.cons.injEq, and_true]
    omega
  | case6 => rfl

theorem b32Char_spec : ∀ v < 32, b32Val (b32Char v) = some v ∧ b32Char v ≠ 10 ∧ b32Char v ≠ 13 := by decide

theorem b32Decode_encode (l : List Nat) (h : ∀ x ∈ l, x < 256) :
    b32Decode ((b32Groups l).map b32Char) = .ok (l.map UInt8.ofNat) := by
  have hlt := b32Groups_lt l h
  have hfilter : ((b32Groups l).map b32Char).filter (fun c => c ≠ 10 ∧ c ≠ 13) = (b32Groups l).map b32Char := by
    rw [List.filter_eq_self]
    intro c hc
    obtain ⟨v, hv, rfl⟩ := List.mem_map.1 hc
    simpa using (b32Char_spec v (hlt v hv)).2
  have hmap : ∀ g : List Nat, (∀ v ∈ g, v < 32) → (g.map b32Char).mapM b32Val = some g := by
    intro g
    induction g with
    | nil => intro _; rfl
    | cons v g ih =>
      intro hg
      rw [List.map_cons, List.mapM_cons, (b32Char_spec v (hg v (by simp))).1, ih (fun x hx => hg x (List.mem_cons_of_mem _ hx))]
      rfl
  unfold b32Decode
  rw [hfilter, hmap _ hlt]
  simp only [b32Bytes_groups l h]

/-- C65. `DigestFromString(d.String())` is `d` for every digest, so distinct digests have distinct strings; the string has 52 characters. -/
theorem C65_round_trip (d : Digest) :
    digestFromString (digestString d) = .ok d ∧ (∀ d', digestString d' = digestString d → d' = d) ∧ (digestString d).length = 52 := by
  have hrt : ∀ d : Digest, digestFromString (digestString d) = .ok d := by
    intro d
    unfold digestFromString digestString
    rw [b32Decode_encode _ (fun x hx => by obtain ⟨c, _, rfl⟩ := List.mem_map.1 hx; exact c.toNat_lt)]
    have hid : (d.1.map UInt8.toNat).map UInt8.ofNat = d.1 := by
      rw [List.map_map]
      conv_rhs => rw [← List.map_id d.1]
      exact List.map_congr_left (fun x _ => by simp)
    simp only [bind, Except.bind, hid, d.2, dite_true]
  refine ⟨hrt d, ?_, ?_⟩
  · intro d' h
    have h1 := hrt d'
    rw [h, hrt d] at h1
    injection h1 with h1
    exact h1.symm
  · obtain ⟨l, hl⟩ := d
    match l, hl with
    | [b0, b1, b2, b3, b4, b5, b6, b7, b8, b9, b10, b11, b12, b13, b14, b15, b16, b17, b18, b19, b20, b21, b22, b23, b24, b25, b26, b27, b28, b29, b30, b31], _ => rfl

/-- C65. A string that is no base32 text or whose decoded length is not 32 is rejected with an error, never with a panic. -/
theorem C65_rejections (s : Str) :
    ((∀ b, b32Decode s = .ok b → b.length ≠ 32) → ∃ c m, digestFromString s = .error (.err c m)) ∧
    (∀ c ∈ s, c ≠ 10 → c ≠ 13 → b32Val c = none → ∃ c m, digestFromString s = .error (.err c m)) := by
  constructor
  · intro h
    unfold digestFromString
    cases hd : b32Decode s with
    | error e =>
      refine ⟨.unknown, "illegal base32 data", ?_⟩
      unfold b32Decode at hd
      split at hd
      · injection hd with hd; rw [← hd]; rfl
      · cases hd
    | ok b =>
      refine ⟨.unknown, "Attempted to decode a string which was not a Digest", ?_⟩
      simp only [bind, Except.bind, h b hd, dite_false]
  · intro c hc h1 h2 h3
    refine ⟨.unknown, "illegal base32 data", ?_⟩
    have : (s.filter fun c => c ≠ 10 ∧ c ≠ 13).mapM b32Val = none := by
      have hmem : c ∈ s.filter fun c => c ≠ 10 ∧ c ≠ 13 := by
        rw [List.mem_filter]; exact ⟨hc, by simp [h1, h2]⟩
      generalize (s.filter fun c => decide (c ≠ 10 ∧ c ≠ 13)) = l at hmem
      induction l with
      | nil => simp at hmem
      | cons x l ih =>
        rw [List.mapM_cons]
        rcases List.mem_cons.1 hmem with rfl | hmem
        · rw [h3]; rfl
        · rw [ih hmem]
          cases b32Val x <;> rfl
    unfold digestFromString b32Decode
    rw [this]
    rfl

/-- A lower-case string is rejected. -/
example : ∃ c m, digestFromString [97, 97] = .error (.err c m) := (C65_rejections [97, 97]).2 97 (by simp) (by decide) (by decide) (by decide)

end Resmix.Merkle
