import Verif.Proofs.Merkle
import Verif.Spec.Merkle
set_option autoImplicit false
namespace Resmix.Merkle

theorem pairBytes_inj {l r l' r' : Digest} (h : pairBytes l r = pairBytes l' r') : l = l' ∧ r = r' := by
  have := List.append_inj h (by rw [r.2, r'.2])
  exact ⟨Subtype.ext this.2, Subtype.ext this.1⟩

theorem pairBytes_length (l r : Digest) : (pairBytes l r).length = 64 := by simp [pairBytes, l.2, r.2]

theorem mem_pairsOf (H : HashFn) (L : List Digest) (p : Nat) (hp : p < (layerUp H L).length) :
    pairBytes (at' L (2 * p)) (at' L (2 * p + 1)) ∈ pairsOf L := by
  induction L using layerUp.induct generalizing p with
  | case1 => simp [layerUp] at hp
  | case2 a =>
    have : p = 0 := by simp [layerUp] at hp; omega
    subst this; simp [pairsOf, at']
  | case3 a b t ih =>
    cases p with
    | zero => simp [pairsOf, at']
    | succ p =>
      have := ih p (by simpa [layerUp] using hp)
      rw [pairsOf, List.mem_cons]
      right
      rw [show 2 * (p + 1) = (2 * p) + 1 + 1 from by ring]
      exact this

theorem hashedOnPath_eq (H : HashFn) (pos : Nat) (d : Digest) (ss : List Digest) : hashedOnPath H pos d ss = climbInputs H pos d ss := by
  induction ss generalizing pos d with
  | nil => rfl
  | cons s ss ih => simp only [hashedOnPath, climbInputs, ih]; rfl

theorem stepBytes_length (pos : Nat) (d s : Digest) : (stepBytes pos d s).length = 64 := by
  unfold stepBytes; split <;> exact pairBytes_length _ _

theorem climbInputs_length (H : HashFn) (pos : Nat) (d : Digest) (ss : List Digest) : ∀ x ∈ climbInputs H pos d ss, x.length = 64 := by
  induction ss generalizing pos d with
  | nil => simp [climbInputs]
  | cons s ss ih =>
    intro x hx
    rcases List.mem_cons.1 hx with rfl | hx
    · exact stepBytes_length _ _ _
    · exact ih _ _ x hx

theorem climb_append (H : HashFn) (pos : Nat) (d : Digest) (p1 p2 : List Digest) :
    climb H pos d (p1 ++ p2) = climb H (pos / 2 ^ p1.length) (climb H pos d p1) p2 := by
  induction p1 generalizing pos d with
  | nil => simp [climb]
  | cons s p1 ih =>
    simp only [List.cons_append, climb, ih, List.length_cons]
    rw [Nat.div_div_eq_div_mul, ← Nat.pow_succ']

theorem climbInputs_append (H : HashFn) (pos : Nat) (d : Digest) (p1 p2 : List Digest) :
    climbInputs H pos d (p1 ++ p2) = climbInputs H pos d p1 ++ climbInputs H (pos / 2 ^ p1.length) (climb H pos d p1) p2 := by
  induction p1 generalizing pos d with
  | nil => simp [climb, climbInputs]
  | cons s p1 ih =>
    simp only [List.cons_append, climb, climbInputs, ih, List.length_cons]
    rw [Nat.div_div_eq_div_mul, ← Nat.pow_succ']

/-- A non-empty climb ends with a hash of one of its inputs. -/
theorem climb_hash (H : HashFn) (pos : Nat) (d : Digest) (ss : List Digest) (h : ss ≠ []) : ∃ y ∈ climbInputs H pos d ss, climb H pos d ss = H y := by
  induction ss generalizing pos d with
  | nil => exact absurd rfl h
  | cons s ss ih =>
    cases ss with
    | nil => exact ⟨_, List.mem_cons_self, rfl⟩
    | cons s' ss' =>
      obtain ⟨y, hy, h2⟩ := ih (pos / 2) (H (stepBytes pos d s)) (by simp)
      exact ⟨y, List.mem_cons_of_mem _ hy, h2⟩

/-- Climbing as many steps as the layer is high. -/
theorem bind_exact (H : HashFn) {L : List Digest} {t : Tree} (ht : IsTree H L t) :
    ∀ (pos : Nat) (d : Digest) (proof : List Digest), proof.length + 1 = t.length → pos < 2 ^ proof.length →
      Merkle.root t = .ok (climb H pos d proof) →
      d = at' L pos ∨ ZeroPreimage H (climbInputs H pos d proof) ∨ Collision H (t.dropLast.flatMap pairsOf) (climbInputs H pos d proof) := by
  induction ht with
  | top a =>
    intro pos d proof hl hpos hroot
    have : proof = [] := by simpa using hl
    subst this
    have : pos = 0 := by simpa using hpos
    subst this
    left
    simp only [Merkle.root, List.getLast?_singleton, goIndex, List.getElem?_cons_zero, climb] at hroot
    injection hroot with hroot
    rw [← hroot]; rfl
  | up L t h1 hu ih =>
    intro pos d proof hl hpos hroot
    have htl : 0 < t.length := List.length_pos_iff.2 hu.ne_nil
    match proof, hl with
    | [], hl => simp only [List.length_nil, List.length_cons] at hl; omega
    | s :: ss, hl =>
      have hroot' : Merkle.root t = .ok (climb H (pos / 2) (H (stepBytes pos d s)) ss) := by
        have : (L :: t).getLast? = t.getLast? := by
          obtain ⟨v, rfl⟩ := hu.head
          simp [List.getLast?_cons_cons]
        unfold Merkle.root at hroot ⊢
        rw [this] at hroot
        exact hroot
      have hdrop : (L :: t).dropLast = L :: t.dropLast := by
        obtain ⟨v, rfl⟩ := hu.head
        rfl
      rw [hdrop, List.flatMap_cons]
      have hpos2 : pos / 2 < 2 ^ ss.length := by
        simp only [List.length_cons, Nat.pow_succ] at hpos
        omega
      rcases ih (pos / 2) (H (stepBytes pos d s)) ss (by simpa using hl) hpos2 hroot' with hd | ⟨y, hy, hz⟩ | ⟨x, hx, y, hy, hne, he⟩
      · by_cases hlt : pos / 2 < (layerUp H L).length
        · rw [layerUp_at H L _ hlt] at hd
          by_cases heq : pairBytes (at' L (2 * (pos / 2))) (at' L (2 * (pos / 2) + 1)) = stepBytes pos d s
          · left
            unfold stepBytes at heq
            split at heq
            · next hev => rw [← (pairBytes_inj heq).1, show 2 * (pos / 2) = pos from by omega]
            · next hodd => rw [← (pairBytes_inj heq).2, show 2 * (pos / 2) + 1 = pos from by omega]
          · right; right
            refine ⟨_, List.mem_append_left _ (mem_pairsOf H L _ hlt), stepBytes pos d s, List.mem_cons_self, heq, hd.symm⟩
        · right; left
          refine ⟨stepBytes pos d s, List.mem_cons_self, ?_⟩
          rw [hd]
          unfold at'
          rw [List.getD_eq_default _ _ (by omega)]
      · exact Or.inr (Or.inl ⟨y, List.mem_cons_of_mem _ hy, hz⟩)
      · exact Or.inr (Or.inr ⟨x, List.mem_append_right _ hx, y, List.mem_cons_of_mem _ hy, hne, he⟩)

/-- Climbing fewer steps: the digest is an inner node. -/
theorem bind_short (H : HashFn) {L : List Digest} {t : Tree} (ht : IsTree H L t) :
    ∀ (pos : Nat) (d : Digest) (proof : List Digest), proof.length + 1 < t.length → pos < 2 ^ proof.length →
      Merkle.root t = .ok (climb H pos d proof) →
      d = .zero ∨ (∃ x ∈ t.dropLast.flatMap pairsOf, x.length = 64 ∧ d = H x) ∨ ZeroPreimage H (climbInputs H pos d proof) ∨
        Collision H (t.dropLast.flatMap pairsOf) (climbInputs H pos d proof) := by
  induction ht with
  | top a => intro pos d proof hl; simp at hl
  | up L t h1 hu ih =>
    intro pos d proof hl hpos hroot
    have hroot' : Merkle.root t = .ok (climb H pos d proof) := by
      have : (L :: t).getLast? = t.getLast? := by
        obtain ⟨v, rfl⟩ := hu.head
        simp [List.getLast?_cons_cons]
      unfold Merkle.root at hroot ⊢
      rw [this] at hroot
      exact hroot
    have hdrop : (L :: t).dropLast = L :: t.dropLast := by
      obtain ⟨v, rfl⟩ := hu.head
      rfl
    rw [hdrop, List.flatMap_cons]
    by_cases hlen : proof.length + 1 < t.length
    · rcases ih pos d proof hlen hpos hroot' with h | ⟨x, hx, h2, h3⟩ | h | ⟨x, hx, y, hy, hne, he⟩
      · exact Or.inl h
      · exact Or.inr (Or.inl ⟨x, List.mem_append_right _ hx, h2, h3⟩)
      · exact Or.inr (Or.inr (Or.inl h))
      · exact Or.inr (Or.inr (Or.inr ⟨x, List.mem_append_right _ hx, y, hy, hne, he⟩))
    · have hlen' : proof.length + 1 = t.length := by simp at hl; omega
      rcases bind_exact H hu pos d proof hlen' hpos hroot' with hd | h | ⟨x, hx, y, hy, hne, he⟩
      · by_cases hlt : pos < (layerUp H L).length
        · rw [layerUp_at H L _ hlt] at hd
          exact Or.inr (Or.inl ⟨_, List.mem_append_left _ (mem_pairsOf H L _ hlt), pairBytes_length _ _, hd⟩)
        · left
          rw [hd]; unfold at'
          rw [List.getD_eq_default _ _ (by omega)]
      · exact Or.inr (Or.inr (Or.inl h))
      · exact Or.inr (Or.inr (Or.inr ⟨x, List.mem_append_right _ hx, y, hy, hne, he⟩))

theorem ZeroPreimage.mono {H : HashFn} {ys ys' : List Bytes} (h : ZeroPreimage H ys) (hs : ∀ y ∈ ys, y ∈ ys') : ZeroPreimage H ys' := by
  obtain ⟨y, hy, h⟩ := h; exact ⟨y, hs y hy, h⟩

theorem Collision.mono {H : HashFn} {xs xs' ys ys' : List Bytes} (h : Collision H xs ys) (hx : ∀ x ∈ xs, x ∈ xs') (hy : ∀ y ∈ ys, y ∈ ys') :
    Collision H xs' ys' := by
  obtain ⟨x, hx', y, hy', h⟩ := h; exact ⟨x, hx x hx', y, hy y hy', h⟩

theorem at'_map (H : HashFn) (arr : List Bytes) (pos : Nat) :
    (∃ e, arr[pos]? = some e ∧ at' (arr.map H) pos = H e) ∨ (arr.length ≤ pos ∧ at' (arr.map H) pos = .zero) := by
  by_cases h : pos < arr.length
  · left
    refine ⟨arr[pos], List.getElem?_eq_getElem h, ?_⟩
    unfold at'
    rw [List.getD_eq_getElem?_getD, List.getElem?_map, List.getElem?_eq_getElem h]; rfl
  · right
    refine ⟨by omega, ?_⟩
    unfold at'
    rw [List.getD_eq_default _ _ (by simp; omega)]

end Resmix.Merkle
