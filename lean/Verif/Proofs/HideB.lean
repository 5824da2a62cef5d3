import Verif.Proofs.HideA
import Mathlib.Data.Fintype.BigOperators
import Mathlib.Algebra.BigOperators.Intervals
import Mathlib.Tactic.Ring
import Mathlib.Tactic.Linarith
set_option autoImplicit false
/-
How much the order of a shuffled batch tells about the order in which it came in: counting random words.
-/
namespace Resmix.Shuffle
open Finset

/-- The draws a sequence of words reduces to. -/
def red (N n : Nat) (ws : Fin n → Fin N) : (k : Fin n) → Fin (n - k) := fun k => ⟨(ws k).val % (n - k), Nat.mod_lt _ (by have := k.2; omega)⟩

theorem card_residue (N m j : Nat) (hm : 0 < m) (hj : j < m) :
    (univ.filter fun w : Fin N => w.val % m = j).card = N / m + if j < N % m then 1 else 0 := by
  rw [← count_mod N m j hm hj]
  rw [← Finset.card_map (⟨Fin.val, Fin.val_injective⟩ : Fin N ↪ Nat)]
  have : (Finset.map ⟨Fin.val, Fin.val_injective⟩ (univ.filter fun w : Fin N => w.val % m = j)) = (Finset.range N).filter fun w => w % m = j := by
    ext x
    simp only [mem_map, mem_filter, mem_univ, true_and, Function.Embedding.coeFn_mk, mem_range]
    constructor
    · rintro ⟨a, h, rfl⟩; exact ⟨a.2, h⟩
    · rintro ⟨h1, h2⟩; exact ⟨⟨x, h1⟩, h2, rfl⟩
  rw [this]
  simp [Finset.range, Finset.filter, Finset.card, Multiset.range]

/-- How many word sequences reduce to given draws. -/
theorem card_fiber (N n : Nat) (d : (k : Fin n) → Fin (n - k)) :
    (univ.filter fun ws : Fin n → Fin N => red N n ws = d).card = ∏ k : Fin n, (N / (n - k) + if (d k).val < N % (n - k) then 1 else 0) := by
  have : (univ.filter fun ws : Fin n → Fin N => red N n ws = d) = Fintype.piFinset fun k => univ.filter fun w : Fin N => w.val % (n - k) = (d k).val := by
    ext ws
    simp only [mem_filter, mem_univ, true_and, Fintype.mem_piFinset, red, funext_iff, Fin.ext_iff]
  rw [this, Fintype.card_piFinset]
  refine Finset.prod_congr rfl fun k _ => ?_
  exact card_residue N _ _ (by have := k.2; omega) (d k).2

/-- The order drawn, as a list of indices. -/
def drawn {n : Nat} (d : (k : Fin n) → Fin (n - k)) : List Nat := pureLoop n (List.ofFn fun k => (d k).val) (List.range n)

theorem valid_ofFn {n : Nat} (d : (k : Fin n) → Fin (n - k)) : ValidDraws n (List.ofFn fun k => (d k).val) := by
  refine ⟨by simp, fun i hi => ?_⟩
  simp only [List.getElem_ofFn]
  exact (d ⟨i, by simpa using hi⟩).2

theorem drawn_inj {n : Nat} {d e : (k : Fin n) → Fin (n - k)} (hp : (drawn d).Perm (List.range n)) (h : drawn d = drawn e) : d = e := by
  obtain ⟨js, -, hu⟩ := pureLoop_bij n (List.range n) (drawn d) (by simp) List.nodup_range hp (by
    have h1 : (drawn d).length = n := by simpa using hp.length_eq
    rw [List.drop_eq_nil_of_le (by omega), List.drop_eq_nil_of_le (by simp)])
  have h1 := hu _ (valid_ofFn d) rfl
  have h2 := hu _ (valid_ofFn e) h.symm
  have := List.ofFn_injective (h1.trans h2.symm)
  funext k
  exact Fin.ext (congrFun this k)

theorem drawn_surj {n : Nat} {p : List Nat} (hp : p.Perm (List.range n)) : ∃ d : (k : Fin n) → Fin (n - k), drawn d = p := by
  obtain ⟨js, ⟨hv, hl⟩, -⟩ := pureLoop_bij n (List.range n) p (by simp) List.nodup_range hp (by
    have h1 : p.length = n := by simpa using hp.length_eq
    rw [List.drop_eq_nil_of_le (by omega), List.drop_eq_nil_of_le (by simp)])
  refine ⟨fun k => ⟨js[k.val]'(by rw [hv.1]; exact k.2), hv.2 k.val (by rw [hv.1]; exact k.2)⟩, ?_⟩
  rw [← hl]
  unfold drawn
  congr 1
  apply List.ext_getElem
  · simp [hv.1]
  · intro i h1 h2; simp

/-- What a fresh shuffler does with a word sequence. -/
theorem shuffle_words {α : Type} (inp : List α) (ws : Fin inp.length → Fin (2 ^ 32)) :
    (drawn (red (2 ^ 32) inp.length ws)).Perm (List.range inp.length) ∧
    ∀ out, (∃ shf, shuffleOnions (newShuffler scripted (List.ofFn fun k => be32 (ws k).val)) inp = .ok (out, shf)) ↔
      (drawn (red (2 ^ 32) inp.length ws)).map (fun i => inp[i]?) = out.map some := by
  have key : permutation scripted (List.ofFn fun k => be32 (ws k).val) inp.length = .ok (drawn (red (2 ^ 32) inp.length ws), []) := by
    apply permLoop_scripted inp.length _ _ (by simp) (by
      intro w hw; obtain ⟨a, rfl⟩ := List.mem_ofFn' _ _ |>.1 hw; rfl) (by simp) _ (by simp)
    intro i hi
    simp only [List.getElem_ofFn, red]
    rw [beNat_be32 _ (ws _).2]
  obtain ⟨p, s', h1, h2⟩ := permutation_perm scripted (List.ofFn fun k => be32 (ws k).val) inp.length
  rw [key] at h1
  cases h1
  refine ⟨h2, fun out => ?_⟩
  obtain ⟨out', h3, h4, h5⟩ := applyPerm_eq _ inp h2
  have hs : shuffleOnions (newShuffler scripted (List.ofFn fun k => be32 (ws k).val)) inp = .ok (out', ⟨some (drawn (red (2 ^ 32) inp.length ws)), []⟩) := by
    unfold shuffleOnions needsPerm newShuffler
    simp only [if_true, key, bind, Except.bind, h3]
  rw [hs, h5]
  constructor
  · rintro ⟨shf, h⟩; cases h; rfl
  · intro h
    have := List.map_injective_iff.2 (Option.some_injective _) h
    subst this
    exact ⟨_, rfl⟩

/-- The draws that turn `inp` into `out`. -/
def Good {α : Type} (inp out : List α) (d : (k : Fin inp.length) → Fin (inp.length - k)) : Prop :=
  (drawn d).Perm (List.range inp.length) ∧ (drawn d).map (fun i => inp[i]?) = out.map some

open Classical in
theorem ways_eq {α : Type} (inp out : List α) :
    ways inp out = ∑ d ∈ univ.filter (Good inp out), ∏ k : Fin inp.length, (2 ^ 32 / (inp.length - k) + if (d k).val < 2 ^ 32 % (inp.length - k) then 1 else 0) := by
  unfold ways
  rw [Nat.card_eq_fintype_card, Fintype.card_subtype]
  rw [Finset.card_eq_sum_card_fiberwise (f := red (2 ^ 32) inp.length) (t := univ.filter (Good inp out))]
  · refine Finset.sum_congr rfl fun d hd => ?_
    rw [← card_fiber]
    congr 1
    ext ws
    simp only [mem_filter, mem_univ, true_and, and_iff_right_iff_imp] at hd ⊢
    rintro rfl
    exact (shuffle_words inp ws).2 out |>.2 hd.2
  · intro ws hws
    simp only [coe_filter, mem_univ, true_and, Set.mem_setOf_eq] at hws ⊢
    exact ⟨(shuffle_words inp ws).1, (shuffle_words inp ws).2 out |>.1 hws⟩

open Classical in
/-- Equally many draws lead to `out` from two arrangements of the same elements. -/
theorem good_le {α : Type} {xs ys : List α} (h : xs.Perm ys) (out : List α) : (univ.filter (Good ys out)).card ≤ (univ.filter (Good xs out)).card := by
  obtain ⟨σ, hσ, hm⟩ := exists_index_perm h.symm
  have hσl : σ.length = xs.length := by simpa using hσ.length_eq
  have hl := h.length_eq
  have hys : ∀ i, i < xs.length → ys[i]? = xs[σ.getD i 0]? := by
    intro i hi
    have := congrArg (fun l => l[i]?) hm
    simp only [List.getElem?_map] at this
    rw [List.getElem?_eq_getElem (show i < σ.length by omega), List.getElem?_eq_getElem (show i < ys.length by omega)] at this
    simp only [Option.map_some, Option.some.injEq] at this
    rw [List.getElem?_eq_getElem (show i < ys.length by omega), ← this, List.getD, List.getElem?_eq_getElem (show i < σ.length by omega)]
    rfl
  have hcomp : ∀ p : List Nat, p.Perm (List.range ys.length) → (p.map fun i => σ.getD i 0).Perm (List.range xs.length) := by
    intro p hp
    refine (hp.map _).trans ?_
    have : (List.range ys.length).map (fun i => σ.getD i 0) = σ := by
      apply List.ext_getElem
      · simp; omega
      · intro i h1 h2
        simp only [List.getElem_map, List.getElem_range]
        simp [List.getD, List.getElem?_eq_getElem h2]
    rw [this]
    exact hσ
  have hex : ∀ d : (k : Fin ys.length) → Fin (ys.length - k), Good ys out d →
      ∃ e : (k : Fin xs.length) → Fin (xs.length - k), drawn e = (drawn d).map fun i => σ.getD i 0 :=
    fun d hd => drawn_surj (hcomp _ hd.1)
  refine Finset.card_le_card_of_injOn (fun d => if hd : Good ys out d then (hex d hd).choose else fun k => ⟨0, by have := k.2; omega⟩) ?_ ?_
  · intro d hd
    simp only [coe_filter, mem_univ, true_and, Set.mem_setOf_eq] at hd ⊢
    rw [dif_pos hd]
    have he := (hex d hd).choose_spec
    refine ⟨by rw [he]; exact hcomp _ hd.1, ?_⟩
    rw [he, ← hd.2, List.map_map]
    refine List.map_congr_left fun i hi => ?_
    have : i < ys.length := by simpa using hd.1.mem_iff.1 hi
    exact (hys i (by omega)).symm
  · intro d hd e he hde
    simp only [coe_filter, mem_univ, true_and, Set.mem_setOf_eq] at hd he
    simp only [dif_pos hd, dif_pos he] at hde
    have h1 := (hex d hd).choose_spec
    have h2 := (hex e he).choose_spec
    rw [hde, h2] at h1
    refine drawn_inj hd.1 ?_
    have hnd := hσ.nodup_iff.2 List.nodup_range
    have hinj : ∀ i ∈ drawn d, ∀ j ∈ drawn e, σ.getD i 0 = σ.getD j 0 → i = j := by
      intro i hi j hj hij
      have hi' : i < σ.length := by have := hd.1.mem_iff.1 hi; simp at this; omega
      have hj' : j < σ.length := by have := he.1.mem_iff.1 hj; simp at this; omega
      rw [List.getD, List.getD, List.getElem?_eq_getElem hi', List.getElem?_eq_getElem hj'] at hij
      exact (List.Nodup.getElem_inj_iff hnd).1 hij
    generalize drawn d = A at h1 hinj
    generalize drawn e = B at h1 hinj
    clear * - h1 hinj
    induction A generalizing B with
    | nil => cases B with
      | nil => rfl
      | cons => simp at h1
    | cons a A ih => cases B with
      | nil => simp at h1
      | cons b B =>
        simp only [List.map_cons, List.cons.injEq] at h1
        rw [hinj a (by simp) b (by simp) h1.1.symm, ih B h1.2 (fun i hi j hj => hinj i (by simp [hi]) j (by simp [hj]))]

open Classical in
theorem good_card {α : Type} {xs ys : List α} (h : xs.Perm ys) (out : List α) :
    (univ.filter (Good ys out)).card = (univ.filter (Good xs out)).card :=
  Nat.le_antisymm (good_le h out) (good_le h.symm out)

theorem prod_bound (N n : Nat) :
    (∏ m ∈ range n, (N / (m + 1) + 1)) * (2 * N - n * (n + 1)) ≤ 2 * N * ∏ m ∈ range n, (N / (m + 1)) := by
  induction n with
  | zero => simp
  | succ n ih =>
    rw [Finset.prod_range_succ, Finset.prod_range_succ]
    set U := ∏ m ∈ range n, (N / (m + 1) + 1)
    set P := ∏ m ∈ range n, (N / (m + 1))
    set q := N / (n + 1)
    have hq : N < (q + 1) * (n + 1) := by
      have := Nat.lt_mul_div_succ N (show 0 < n + 1 by omega)
      rw [Nat.mul_comm]
      exact this
    have hstep : (q + 1) * (2 * N - (n + 1) * (n + 1 + 1)) ≤ (2 * N - n * (n + 1)) * q := by
      rcases Nat.le_total (2 * N) ((n + 1) * (n + 1 + 1)) with h | h
      · rw [Nat.sub_eq_zero_of_le h]; simp
      · obtain ⟨c, hc⟩ := Nat.exists_eq_add_of_le h
        have e1 : 2 * N - (n + 1) * (n + 1 + 1) = c := by omega
        have e2 : 2 * N - n * (n + 1) = c + 2 * (n + 1) := by
          have : (n + 1) * (n + 1 + 1) = n * (n + 1) + 2 * (n + 1) := by ring
          omega
        rw [e1, e2]
        have : c ≤ 2 * (n + 1) * q := by
          have : (n + 1) * (n + 1 + 1) ≥ 2 * (n + 1) := by nlinarith
          nlinarith
        nlinarith
    calc U * (q + 1) * (2 * N - (n + 1) * (n + 1 + 1)) = U * ((q + 1) * (2 * N - (n + 1) * (n + 1 + 1))) := by ring
      _ ≤ U * ((2 * N - n * (n + 1)) * q) := Nat.mul_le_mul_left _ hstep
      _ = (U * (2 * N - n * (n + 1))) * q := by ring
      _ ≤ (2 * N * P) * q := Nat.mul_le_mul_right _ ih
      _ = 2 * N * (P * q) := by ring

theorem prod_fin (n : Nat) (g : Nat → Nat) : ∏ k : Fin n, g (n - k) = ∏ m ∈ range n, g (m + 1) := by
  rw [Fin.prod_univ_eq_prod_range (fun k => g (n - k)) n, ← Finset.prod_range_reflect]
  refine Finset.prod_congr rfl fun m hm => ?_
  have : m < n := mem_range.1 hm
  congr 1
  omega

open Classical in
/-- The order that comes out hardly depends on the order that went in. -/
theorem ways_close {α : Type} {xs ys : List α} (h : xs.Perm ys) (out : List α) :
    ways xs out * (2 ^ 33 - xs.length * (xs.length + 1)) ≤ 2 ^ 33 * ways ys out := by
  have hl := h.length_eq
  rw [ways_eq, ways_eq]
  set n := xs.length with hn
  have hup : ∑ d ∈ univ.filter (Good xs out), ∏ k : Fin xs.length, (2 ^ 32 / (xs.length - k) + if (d k).val < 2 ^ 32 % (xs.length - k) then 1 else 0) ≤
      (univ.filter (Good xs out)).card * ∏ m ∈ range n, (2 ^ 32 / (m + 1) + 1) := by
    rw [← smul_eq_mul]
    refine Finset.sum_le_card_nsmul _ _ _ fun d _ => ?_
    rw [← prod_fin n fun m => 2 ^ 32 / m + 1]
    refine Finset.prod_le_prod' fun k _ => ?_
    show _ ≤ 2 ^ 32 / (xs.length - k.val) + 1
    split <;> omega
  have hlo : (univ.filter (Good ys out)).card * ∏ m ∈ range n, (2 ^ 32 / (m + 1)) ≤
      ∑ d ∈ univ.filter (Good ys out), ∏ k : Fin ys.length, (2 ^ 32 / (ys.length - k) + if (d k).val < 2 ^ 32 % (ys.length - k) then 1 else 0) := by
    rw [← smul_eq_mul]
    refine Finset.card_nsmul_le_sum _ _ _ fun d _ => ?_
    rw [hl, ← prod_fin ys.length fun m => 2 ^ 32 / m]
    refine Finset.prod_le_prod' fun k _ => ?_
    omega
  rw [good_card h] at hlo
  have hb := prod_bound (2 ^ 32) n
  set A := (univ.filter (Good xs out)).card
  set U := ∏ m ∈ range n, (2 ^ 32 / (m + 1) + 1)
  set P := ∏ m ∈ range n, (2 ^ 32 / (m + 1))
  calc _ ≤ A * U * (2 ^ 33 - n * (n + 1)) := Nat.mul_le_mul_right _ hup
    _ = A * (U * (2 * 2 ^ 32 - n * (n + 1))) := by rw [Nat.mul_assoc, show (2 : Nat) ^ 33 = 2 * 2 ^ 32 by norm_num]
    _ ≤ A * (2 * 2 ^ 32 * P) := Nat.mul_le_mul_left _ hb
    _ = 2 ^ 33 * (A * P) := by ring
    _ ≤ _ := Nat.mul_le_mul_left _ hlo

end Resmix.Shuffle
