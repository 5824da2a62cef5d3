import Mathlib.LinearAlgebra.Lagrange
import Verif.Model.Ibe
import Verif.Proofs.Fr
set_option autoImplicit false
namespace Resmix

theorem blsOrder_gt : 2 ^ 64 < blsOrder := by decide +kernel

theorem u64_lt (i : Int) : u64 i < 2 ^ 64 := by unfold u64; omega

theorem u64_inj {i j : Int} (hi : IsInt i) (hj : IsInt j) (h : u64 i = u64 j) : i = j := by
  unfold u64 at h; unfold IsInt at hi hj; omega

theorem natCast_fr_inj {a b : Nat} (ha : a < 2 ^ 64) (hb : b < 2 ^ 64) (h : (a : Fr) = (b : Fr)) : a = b := by
  rw [ZMod.natCast_eq_natCast_iff'] at h
  have := blsOrder_gt
  rwa [Nat.mod_eq_of_lt (by omega), Nat.mod_eq_of_lt (by omega)] at h

theorem frOfInt_inj {i j : Int} (hi : IsInt i) (hj : IsInt j) (h : frOfInt i = frOfInt j) : i = j :=
  u64_inj hi hj (natCast_fr_inj (u64_lt i) (u64_lt j) h)

theorem frOfInt_zero : frOfInt 0 = 0 := by simp [frOfInt, u64]

theorem frOfInt_eq_zero {i : Int} (hi : IsInt i) : frOfInt i = 0 ↔ i = 0 := by
  constructor
  · intro h; exact frOfInt_inj hi ⟨by norm_num, by norm_num⟩ (h.trans frOfInt_zero.symm)
  · rintro rfl; exact frOfInt_zero

theorem frOfInt_nat (n : Nat) (h : n < 2 ^ 64) : frOfInt (n : Int) = (n : Fr) := by
  unfold frOfInt u64
  congr 1
  omega

namespace Tibe
open Polynomial

/-- The polynomial with the given coefficients. -/
noncomputable def ofCoefs : List Fr → Fr[X]
  | [] => 0
  | a :: as => C a + X * ofCoefs as

theorem horner_cons (x a : Fr) (as : List Fr) : Poly.horner x (a :: as) = Poly.horner x as * x + a := by
  simp [Poly.horner, List.foldl_append]

theorem horner_eval (x : Fr) (as : List Fr) : Poly.horner x as = (ofCoefs as).eval x := by
  induction as with
  | nil => simp [Poly.horner, ofCoefs]
  | cons a as ih => rw [horner_cons, ih]; simp [ofCoefs]; ring

theorem ofCoefs_sum (as : List Fr) : ofCoefs as = ∑ j : Fin as.length, C as[j] * X ^ (j : Nat) := by
  induction as with
  | nil => simp [ofCoefs]
  | cons a as ih =>
    rw [ofCoefs, ih]
    show _ = ∑ j : Fin (as.length + 1), _
    rw [Fin.sum_univ_succ]
    simp only [Fin.val_zero, pow_zero, mul_one, Finset.mul_sum]
    congr 1
    refine Finset.sum_congr rfl fun j _ => ?_
    simp [pow_succ]; ring

theorem eval_sum (p : Poly) (i : Int) :
    p.eval i = ∑ j : Fin p.coefs.length, p.coefs[j] * (frOfInt i) ^ (j : Nat) := by
  rw [Poly.eval, horner_eval, ofCoefs_sum, eval_finsetSum]
  simp

theorem degree_ofCoefs (as : List Fr) : (ofCoefs as).degree < (as.length : WithBot ℕ) := by
  rw [ofCoefs_sum]
  refine (degree_sum_le _ _).trans_lt ?_
  rw [Finset.sup_lt_iff]
  · intro j _
    exact (degree_C_mul_X_pow_le _ _).trans_lt (by exact_mod_cast j.isLt)
  · exact WithBot.bot_lt_coe _

theorem ofCoefs_coeff (as : List Fr) (n : Nat) : (ofCoefs as).coeff n = as.getD n 0 := by
  induction as generalizing n with
  | nil => simp [ofCoefs]
  | cons a as ih =>
    cases n with
    | zero => simp [ofCoefs]
    | succ n => simp [ofCoefs, ih]

theorem eval_poly (p : Poly) (i : Int) : p.eval i = (ofCoefs p.coefs).eval (frOfInt i) := horner_eval _ _

theorem secret_eq {p : Poly} {s : Fr} (h : p.secret = .ok s) : s = p.eval 0 := by
  obtain ⟨cs⟩ := p
  cases cs with
  | nil => simp [Poly.secret, goIndex] at h
  | cons a as =>
    simp [Poly.secret, goIndex] at h
    rw [eval_poly, frOfInt_zero]
    simp [ofCoefs, h]

theorem secret_ok {p : Poly} (h : p.coefs ≠ []) : p.secret = .ok (p.eval 0) := by
  obtain ⟨cs⟩ := p
  cases cs with
  | nil => exact absurd rfl h
  | cons a as =>
    rw [eval_poly, frOfInt_zero]
    simp [Poly.secret, goIndex, ofCoefs]

/-! Lagrange -/

theorem lagrange_fold (l : List Int) (i : Int) (a b : Fr) :
    l.foldl (fun (nd : Fr × Fr) xj =>
      if xj = i then nd else (nd.1 * frOfInt xj, nd.2 * (frOfInt xj - frOfInt i))) (a, b) =
    (a * ((l.filter (· ≠ i)).map frOfInt).prod, b * ((l.filter (· ≠ i)).map fun x => frOfInt x - frOfInt i).prod) := by
  induction l generalizing a b with
  | nil => simp
  | cons x l ih =>
    rw [List.foldl_cons]
    by_cases hx : x = i
    · rw [if_pos hx, ih, List.filter_cons_of_neg (by simpa using hx)]
    · rw [if_neg hx, ih, List.filter_cons_of_pos (by simpa using hx)]
      simp [mul_assoc]

theorem lagrangeMult_eq (l : List Int) (i : Int) :
    lagrangeMult l i = ((l.filter (· ≠ i)).map frOfInt).prod * (((l.filter (· ≠ i)).map fun x => frOfInt x - frOfInt i).prod)⁻¹ := by
  unfold lagrangeMult
  rw [lagrange_fold]; simp

theorem lagrangeMult_perm {l l' : List Int} (h : l.Perm l') (i : Int) : lagrangeMult l i = lagrangeMult l' i := by
  rw [lagrangeMult_eq, lagrangeMult_eq, ((h.filter _).map frOfInt).prod_eq, ((h.filter _).map fun x => frOfInt x - frOfInt i).prod_eq]

theorem lagrangeMult_basis (l : List Int) (hn : l.Nodup) (i : Int) :
    lagrangeMult l i = (Lagrange.basis l.toFinset frOfInt i).eval 0 := by
  rw [lagrangeMult_eq, Lagrange.basis, eval_prod]
  have hfs : (l.toFinset.erase i) = (l.filter (· ≠ i)).toFinset := by
    ext x; simp [and_comm]
  rw [hfs, List.prod_toFinset _ (hn.filter _)]
  generalize l.filter (· ≠ i) = m
  induction m with
  | nil => simp
  | cons x m ih =>
    simp only [List.map_cons, List.prod_cons, mul_inv]
    rw [← ih]
    have : (Lagrange.basisDivisor (frOfInt i) (frOfInt x)).eval 0 = frOfInt x * (frOfInt x - frOfInt i)⁻¹ := by
      rw [Lagrange.basisDivisor]
      simp only [eval_mul, eval_C, eval_sub, eval_X, zero_sub]
      rw [← neg_sub (frOfInt x) (frOfInt i), inv_neg]
      ring
    rw [this]; ring

/-- Interpolation at zero. -/
theorem lagrange_sum (l : List Int) (hn : l.Nodup) (hI : ∀ i ∈ l, IsInt i) (f : Fr[X])
    (hd : f.degree < (l.length : WithBot ℕ)) :
    (l.map fun i => lagrangeMult l i * f.eval (frOfInt i)).sum = f.eval 0 := by
  have hinj : Set.InjOn frOfInt (l.toFinset : Set Int) := by
    intro a ha b hb h
    exact frOfInt_inj (hI a (by simpa using ha)) (hI b (by simpa using hb)) h
  have hcard : l.toFinset.card = l.length := List.toFinset_card_of_nodup hn
  have := Lagrange.eq_interpolate hinj (by rw [hcard]; exact hd)
  conv_rhs => rw [this]
  rw [Lagrange.interpolate_apply, eval_finsetSum, List.sum_toFinset _ hn]
  congr 1
  refine List.map_congr_left fun i _ => ?_
  rw [lagrangeMult_basis l hn i]
  simp [mul_comm]

theorem newLagrange_ok {l : List Int} (hn : l.Nodup) (i : Int) :
    newLagrange l.length i l = .ok (lagrangeMult l i) := by
  unfold newLagrange
  have hd : l.dedup = l := List.Nodup.dedup hn
  simp only [hd, lt_irrefl, if_false]
  have hp := List.mergeSort_perm l (fun a b : Int => decide (a ≤ b))
  rw [List.take_of_length_le (by rw [hp.length_eq])]
  rw [lagrangeMult_perm hp]

theorem newLagrange_err {l : List Int} {n : Nat} (h : l.dedup.length < n) (i : Int) :
    newLagrange n i l = .error (.err .unknown "missing points") := by
  unfold newLagrange; simp [h]

theorem dedup_length_lt {l : List Int} (h : ¬ l.Nodup) : l.dedup.length < l.length := by
  refine lt_of_le_of_ne (List.dedup_sublist l).length_le fun he => h ?_
  rw [← List.dedup_eq_self]
  exact (List.dedup_sublist l).eq_of_length he

variable {B : Bls}

theorem foldlM_ok {ε α β : Type} (l : List α) (f : β → α → Except ε β) (g : β → α → β) (b : β)
    (h : ∀ a ∈ l, ∀ b, f b a = .ok (g b a)) : l.foldlM f b = .ok (l.foldl g b) := by
  induction l generalizing b with
  | nil => rfl
  | cons a l ih =>
    rw [List.foldlM_cons, h a (by simp), List.foldl_cons]
    exact ih _ fun a' ha' => h a' (by simp [ha'])

theorem foldl_add_map {α M : Type} [AddCommMonoid M] (l : List α) (f : α → M) (b : M) :
    l.foldl (fun s a => s + f a) b = b + (l.map f).sum := by
  induction l generalizing b with
  | nil => simp
  | cons a l ih => rw [List.foldl_cons, ih]; simp [add_assoc]

theorem list_sum_smul {α M : Type} [AddCommGroup M] [Module Fr M] (l : List α) (f : α → Fr) (x : M) :
    (l.map fun a => f a • x).sum = (l.map f).sum • x := by
  induction l with
  | nil => simp
  | cons a l ih => simp [ih, add_smul]

theorem reconstructKey_few {votes : List (Vote B)} {t : Nat} (h : votes.length < t) :
    reconstructKey votes t = .error (.err .unknown "not enough votes to reconstruct secret key") := by
  unfold reconstructKey; simp [h]

theorem reconstructKey_nodup {votes : List (Vote B)} {t : Nat} (h : t ≤ votes.length)
    (hn : ((votes.take t).map (·.index)).Nodup) :
    reconstructKey votes t = .ok ((votes.take t).map fun v =>
      lagrangeMult ((votes.take t).map (·.index)) v.index • v.sig).sum := by
  unfold reconstructKey
  rw [if_neg (by omega)]
  have hl : ((votes.take t).map (·.index)).length = t := by simp [h]
  simp only
  rw [foldlM_ok _ _ (fun s v => s + lagrangeMult ((votes.take t).map (·.index)) v.index • v.sig)]
  · rw [foldl_add_map]; simp
  · intro v _ b
    have := newLagrange_ok hn v.index
    rw [hl] at this
    simp only [this]
    rfl

theorem reconstructKey_dup {votes : List (Vote B)} {t : Nat} (h : t ≤ votes.length)
    (hn : ¬ ((votes.take t).map (·.index)).Nodup) :
    reconstructKey votes t = .error (.err .unknown "missing points") := by
  unfold reconstructKey
  rw [if_neg (by omega)]
  have hl : ((votes.take t).map (·.index)).length = t := by simp [h]
  have hd := dedup_length_lt hn
  rw [hl] at hd
  simp only
  cases hv : votes.take t with
  | nil => rw [hv] at hn; simp at hn
  | cons v vs =>
    rw [hv] at hd
    rw [List.foldlM_cons, newLagrange_err hd]
    rfl

/-- Enough votes by distinct indices, all `P(index) • H`, give `P(0) • H`. -/
theorem reconstructKey_correct {votes : List (Vote B)} {t : Nat} (h : t ≤ votes.length)
    (hn : ((votes.take t).map (·.index)).Nodup) (hI : ∀ v ∈ votes.take t, IsInt v.index)
    (p : Poly) (hp : p.coefs.length ≤ t) (H : B.G2) (hs : ∀ v ∈ votes.take t, v.sig = p.eval v.index • H) :
    reconstructKey votes t = .ok (p.eval 0 • H) := by
  rw [reconstructKey_nodup h hn]
  have hl : ((votes.take t).map (·.index)).length = t := by simp [h]
  congr 1
  have h1 : (votes.take t).map (fun v => lagrangeMult ((votes.take t).map (·.index)) v.index • v.sig) =
      (votes.take t).map (fun v => (lagrangeMult ((votes.take t).map (·.index)) v.index * p.eval v.index) • H) := by
    refine List.map_congr_left fun v hv => ?_
    rw [hs v hv, smul_smul]
  rw [h1, list_sum_smul]
  congr 1
  have := lagrange_sum ((votes.take t).map (·.index)) hn (by intro i hi; rw [List.mem_map] at hi; obtain ⟨v, hv, rfl⟩ := hi; exact hI v hv) (ofCoefs p.coefs)
    ((degree_ofCoefs _).trans_le (by rw [hl]; exact_mod_cast hp))
  rw [eval_poly, frOfInt_zero, ← this, List.map_map]
  congr 1
  refine List.map_congr_left fun v _ => ?_
  simp [eval_poly]

/-! Exponent polynomials -/

theorem compute_fold (x : Fr) (cs : List Fr) (v : Fr) (acc : B.G1) :
    (cs.map fun a => a • B.gen1).foldl (fun (st : Fr × B.G1) c => (st.1 * x, st.2 + st.1 • c)) (v, acc) =
    (v * x ^ cs.length, acc + (v * (ofCoefs cs).eval x) • B.gen1) := by
  induction cs generalizing v acc with
  | nil => simp [ofCoefs]
  | cons a cs ih =>
    rw [List.map_cons, List.foldl_cons, ih]
    simp only [ofCoefs, List.length_cons, eval_add, eval_C, eval_mul, eval_X, Prod.mk.injEq]
    refine ⟨by ring, ?_⟩
    rw [smul_smul, add_assoc, ← add_smul]
    congr 2; ring

theorem compute_eq (p : Poly) (h : p.coefs ≠ []) (i : Nat) :
    (p.exponent B).compute i = .ok ((ofCoefs p.coefs).eval (i : Fr) • B.gen1) := by
  obtain ⟨cs⟩ := p
  cases cs with
  | nil => exact absurd rfl h
  | cons a cs =>
    simp only [Poly.exponent, ExponentPoly.compute, List.map_cons, goIndex, List.getElem?_cons_zero, List.drop_succ_cons,
      List.drop_zero]
    rw [compute_fold]
    simp only [bind, Except.bind, ofCoefs, eval_add, eval_C, eval_mul, eval_X, add_smul, zero_add]

theorem publicShare_eq (p : Poly) (h : p.coefs ≠ []) (i : Nat) :
    (p.exponent B).getPublicShare i = .ok ((ofCoefs p.coefs).eval (i : Fr) • B.gen1) := by
  unfold ExponentPoly.getPublicShare
  split
  · next h0 =>
    subst h0
    obtain ⟨cs⟩ := p
    cases cs with
    | nil => exact absurd rfl h
    | cons a cs => simp [Poly.exponent, goIndex, ofCoefs]
  · exact compute_eq p h i

theorem publicShare_int (p : Poly) (h : p.coefs ≠ []) (i : Int) :
    (p.exponent B).getPublicShare (u64 i) = .ok (p.eval i • B.gen1) := by
  rw [publicShare_eq p h, eval_poly]; rfl

theorem gen1_smul_inj {a b : Fr} (h : a • B.gen1 = b • B.gen1) : a = b := by
  have : (a - b) • B.gen1 = 0 := by rw [sub_smul, h, sub_self]
  exact sub_eq_zero.1 (B.gen1_inj _ this)

theorem pair_gen1_inj {s s' : B.G2} (h : B.pair B.gen1 s = B.pair B.gen1 s') : s = s' := by
  have : B.pair B.gen1 (s - s') = 0 := by rw [map_sub, h, sub_self]
  exact sub_eq_zero.1 (B.nondeg _ this)

theorem valid_iff (id : Bytes) (sig : B.G2) (a : Fr) :
    isValidSignature id sig (a • B.gen1) = true ↔ sig = a • B.hashG2 id := by
  unfold isValidSignature
  rw [decide_eq_true_iff]
  rw [map_smul, LinearMap.smul_apply, ← map_smul]
  exact ⟨fun h => (pair_gen1_inj h).symm, fun h => by rw [h]⟩

theorem checkVote_iff (p : Poly) (h : p.coefs ≠ []) (v : Vote B) :
    Node.checkVote (p.exponent B) v = .ok () ↔ v.sig = p.eval v.index • B.hashG2 v.id := by
  unfold Node.checkVote
  rw [publicShare_int p h]
  simp only [bind, Except.bind]
  rw [← valid_iff]
  by_cases hv : isValidSignature v.id v.sig (p.eval v.index • B.gen1) = true <;> simp [hv]

theorem checkVote_res (p : Poly) (h : p.coefs ≠ []) (v : Vote B) :
    Node.checkVote (p.exponent B) v =
      if isValidSignature v.id v.sig (p.eval v.index • B.gen1) then .ok () else .error (.err .unknown "invalid signature") := by
  unfold Node.checkVote
  rw [publicShare_int p h]
  rfl

theorem forM_ok_iff {α : Type} (l : List α) (f : α → Go Unit) : l.forM f = .ok () ↔ ∀ a ∈ l, f a = .ok () := by
  induction l with
  | nil => simp [pure, Except.pure]
  | cons a l ih =>
    show (f a >>= fun _ => l.forM f) = _ ↔ _
    cases hf : f a with
    | error e => simp [bind, Except.bind, hf]
    | ok u => simp [bind, Except.bind, hf]; exact ih

end Tibe
end Resmix
