import Verif.Model.Reuse
import Verif.Props.Poly
set_option autoImplicit false
/-
C120, C121: polynomial objects that are decoded into again; comparing and copying polynomials.
-/
namespace Resmix.Tibe
open Reuse

theorem readAll_some {α : Type} (l : List α) : readAll (l.map some) = .ok l := by
  induction l with
  | nil => rfl
  | cons x l ih => simp only [List.map_cons, readAll, ih, bind, Except.bind]

/-! ### C120 -/

/-- C120, polynomials: whatever the object held before, a successful SetBytes makes it what it would be as a new object, and it succeeds exactly then. -/
theorem C120_poly_reuse (o : PolyObj) (b : Bytes) :
    ((o.setBytes b).2 = .ok () ↔ ∃ p, Poly.setBytes b = .ok p) ∧ ∀ p, Poly.setBytes b = .ok p → (o.setBytes b).1 = PolyObj.of p := by
  unfold PolyObj.setBytes Poly.setBytes
  by_cases h4 : b.length < 4
  · simp [h4]
  · by_cases hn : b.length ≠ 4 + beNat (b.take 4) * scalarSize
    · simp [h4, hn]
    · simp [h4, hn, PolyObj.of]

/-- What does not hold: a failed SetBytes destroys the object. A header announcing `n > 0` coefficients with any other number of bytes behind it leaves
`n` nil pointers; every later use panics. -/
theorem C120_failed_decode_destroys_refuted (o : PolyObj) (b : Bytes) (h4 : 4 ≤ b.length) (hn : b.length ≠ 4 + 32 * beNat (b.take 4)) (hpos : 0 < beNat (b.take 4)) :
    (∃ m, (o.setBytes b).2 = .error (.err .unknown m)) ∧ ∀ i, (o.setBytes b).1.eval i = .error .panic := by
  unfold PolyObj.setBytes
  rw [if_neg (by omega)]
  dsimp only
  rw [if_pos (by simp only [scalarSize]; omega)]
  refine ⟨⟨_, rfl⟩, fun i => ?_⟩
  obtain ⟨n, hn'⟩ : ∃ n, beNat (b.take 4) = n + 1 := ⟨beNat (b.take 4) - 1, by omega⟩
  rw [hn']
  rfl

/-- Non-vacuity: five bytes destroy a polynomial that worked. -/
example : (PolyObj.of ⟨[5, 3, 2]⟩).eval 4 = .ok 49 ∧ ((PolyObj.of ⟨[5, 3, 2]⟩).setBytes [0, 0, 0, 1, 7]).1.eval 4 = .error .panic :=
  ⟨by decide +kernel, (C120_failed_decode_destroys_refuted _ _ (by decide) (by decide) (by decide)).2 4⟩

section
variable {B : Bls}

theorem readInto_ok (n : Nat) (b : Bytes) (l : List B.G1) (h : ExponentPoly.readG1s B n b = .ok l) : readInto B n b = (l.map some, .ok ()) := by
  induction n generalizing b l with
  | zero => simp only [ExponentPoly.readG1s] at h; cases h; rfl
  | succ n ih =>
    simp only [ExponentPoly.readG1s, bind, Except.bind] at h
    cases hx : B.g1SetBytes (b.take g1Size) with
    | error e => rw [hx] at h; cases h
    | ok x =>
      rw [hx] at h
      dsimp only at h
      cases hxs : ExponentPoly.readG1s B n (b.drop g1Size) with
      | error e => rw [hxs] at h; cases h
      | ok xs =>
        rw [hxs] at h
        cases h
        simp only [readInto, hx, ih _ _ hxs, List.map_cons]

theorem setBytes_ok (o : ExpObj B) (b : Bytes) (e : ExponentPoly B) (h : ExponentPoly.setBytes B b = .ok e) :
    o.setBytes b = ({ o with coefs := e.coefs.map some }, .ok ()) := by
  unfold ExponentPoly.setBytes at h
  unfold ExpObj.setBytes
  split at h
  · cases h
  · next h4 =>
    rw [if_neg h4]
    dsimp only at h ⊢
    split at h
    · cases h
    · next hn =>
      rw [if_neg hn]
      simp only [bind, Except.bind] at h
      cases hr : ExponentPoly.readG1s B (beNat (b.take 4)) (b.drop 4) with
      | error e => rw [hr] at h; cases h
      | ok l =>
        rw [hr] at h
        cases h
        rw [readInto_ok _ _ _ hr]

/-- An index that was never asked for is neither cached nor blocked. -/
theorem run_untouched (o : ExpObj B) (ops : List Op) (i : Nat) (h : Op.get i ∉ ops) (h1 : o.cache.lookup i = none) (h2 : i ∉ o.onces) :
    (o.run ops).cache.lookup i = none ∧ i ∉ (o.run ops).onces := by
  induction ops generalizing o with
  | nil => exact ⟨h1, h2⟩
  | cons op ops ih =>
    have h' : Op.get i ∉ ops := fun hh => h (List.mem_cons_of_mem _ hh)
    cases op with
    | setBytes b =>
      refine ih _ h' ?_ ?_
      · unfold ExpObj.setBytes; split
        · exact h1
        · dsimp only; split <;> exact h1
      · unfold ExpObj.setBytes; split
        · exact h2
        · dsimp only; split <;> exact h2
    | get k =>
      have hk : i ≠ k := fun hh => h (by rw [hh]; exact List.mem_cons_self)
      refine ih _ h' ?_ ?_
      · unfold ExpObj.getPublicShare; split
        · exact h1
        · split
          · exact h1
          · split
            · exact h1
            · split
              · dsimp only; rw [GoMap.lookup_insert_ne _ _ hk]; exact h1
              · exact h1
      · unfold ExpObj.getPublicShare; split
        · exact h2
        · split
          · exact h2
          · split
            · exact h2
            · split
              · simp [hk, h2]
              · simp [hk, h2]

/-- C120, exponent polynomials (partial: for the other indices see below): after any operations on the object and a successful SetBytes, the public share
of index 0, and of every index not asked for before, is that of the polynomial decoded. -/
theorem C120_exponent_new_index_partial (e0 e : ExponentPoly B) (ops : List Op) (b : Bytes) (h : ExponentPoly.setBytes B b = .ok e) (i : Nat)
    (hi : i = 0 ∨ Op.get i ∉ ops) :
    ((((ExpObj.of e0).run ops).setBytes b).1.getPublicShare i).2 = e.getPublicShare i := by
  rw [setBytes_ok _ _ _ h]
  unfold ExpObj.getPublicShare ExponentPoly.getPublicShare
  by_cases h0 : i = 0
  · rw [if_pos h0, if_pos h0]
    cases e.coefs <;> rfl
  · obtain ⟨h1, h2⟩ := run_untouched (ExpObj.of e0) ops i (hi.resolve_left h0) rfl (by simp [ExpObj.of])
    rw [if_neg h0, if_neg h0]
    dsimp only
    rw [h1, if_neg h2]
    simp only [readAll_some, bind, Except.bind]
    cases hc : e.compute i <;> simp_all

/-- C120, what holds of refused bytes: fewer than four bytes leave a polynomial as it was; and a byte string of the wrong length leaves an exponent polynomial as it was, with
all that it has cached. -/
theorem C120_refused_partial (o : PolyObj) (x : ExpObj B) (b : Bytes) :
    (b.length < 4 → (o.setBytes b).1 = o ∧ ∃ m, (o.setBytes b).2 = .error (.err .unknown m)) ∧
    (b.length ≠ 4 + 96 * beNat (b.take 4) → (x.setBytes b).1 = x ∧ ∃ m, (x.setBytes b).2 = .error (.err .unknown m)) := by
  constructor
  · intro h
    unfold PolyObj.setBytes
    rw [if_pos h]
    exact ⟨rfl, _, rfl⟩
  · intro h
    unfold ExpObj.setBytes
    by_cases h4 : b.length < 4
    · rw [if_pos h4]; exact ⟨rfl, _, rfl⟩
    · rw [if_neg h4]
      dsimp only
      rw [if_pos (by simp only [g1Size]; omega)]
      exact ⟨rfl, _, rfl⟩

example (x : ExpObj B) : ((PolyObj.of ⟨[5, 3, 2]⟩).setBytes [0, 0, 1]).1 = PolyObj.of ⟨[5, 3, 2]⟩ ∧ (x.setBytes [0, 0, 0, 1, 7]).1 = x :=
  ⟨((C120_refused_partial _ x _).1 (by decide)).1, ((C120_refused_partial ⟨[]⟩ x _).2 (by decide)).1⟩

/-- What does not hold: of the right length, but with something that is no group element in front, the refused bytes destroy an exponent polynomial: if a second coefficient was
announced it is nil now, and public shares that were not asked for before panic. -/
theorem C120_exponent_failed_decode_destroys_refuted (e0 : ExponentPoly B) (ops : List Op) (b : Bytes) (hn : b.length = 4 + 96 * beNat (b.take 4)) (h2 : 2 ≤ beNat (b.take 4)) (e : Fail)
    (hbad : B.g1SetBytes ((b.drop 4).take 96) = .error e) (i : Nat) (h0 : i ≠ 0) (hi : Op.get i ∉ ops) :
    (((ExpObj.of e0).run ops).setBytes b).2 = .error e ∧ (((ExpObj.of e0).run ops).setBytes b).1.coefs[1]? = some none ∧
    ((((ExpObj.of e0).run ops).setBytes b).1.getPublicShare i).2 = .error .panic := by
  obtain ⟨n, hn'⟩ : ∃ n, beNat (b.take 4) = n + 2 := ⟨beNat (b.take 4) - 2, by omega⟩
  obtain ⟨c1, c2⟩ := run_untouched (ExpObj.of e0) ops i hi rfl (by simp [ExpObj.of])
  have hs : ((ExpObj.of e0).run ops).setBytes b = ({ ((ExpObj.of e0).run ops) with coefs := List.replicate (n + 2) none }, .error e) := by
    unfold ExpObj.setBytes
    rw [if_neg (by omega)]
    dsimp only
    rw [if_neg (by simp only [g1Size]; omega), hn']
    simp only [readInto, g1Size, hbad]
  rw [hs]
  refine ⟨rfl, rfl, ?_⟩
  unfold ExpObj.getPublicShare
  rw [if_neg h0]
  dsimp only
  rw [c1, if_neg c2]
  rfl

/-- Non-vacuity: two points announced, 192 zero bytes behind that are no points (if the library refuses them, as it does 47 bytes). -/
example (hz : ∃ e, B.g1SetBytes (List.replicate 96 0) = .error e) (e0 : ExponentPoly B) :
    ∃ b i, ((((ExpObj.of e0).run [.get 1, .get 2]).setBytes b).1.getPublicShare i).2 = .error .panic := by
  obtain ⟨e, he⟩ := hz
  refine ⟨[0, 0, 0, 2] ++ List.replicate 192 0, 3, (C120_exponent_failed_decode_destroys_refuted e0 [.get 1, .get 2] _ (by decide +kernel) (by decide +kernel) e ?_ 3 (by decide) (by simp)).2.2⟩
  have : (([0, 0, 0, 2] ++ List.replicate 192 0 : Bytes).drop 4).take 96 = List.replicate 96 0 := by decide +kernel
  rw [this]; exact he

/-- What does not hold either: once asking for the public share of an index has panicked, it panics for ever, whatever is decoded into the object afterwards (the Once of that
index has run and nothing was cached). -/
theorem C120_poisoned_index_refuted (o : ExpObj B) (i : Nat) (hi : i ≠ 0) (e : Fail) (hf : (o.getPublicShare i).2 = .error e) (ops : List Op) :
    (((o.getPublicShare i).1.run ops).getPublicShare i).2 = .error .panic := by
  have key : ∀ (ops : List Op) (o : ExpObj B), o.cache.lookup i = none → i ∈ o.onces → ((o.run ops).getPublicShare i).2 = .error .panic := by
    intro ops
    induction ops with
    | nil =>
      intro o h1 h2
      show (o.getPublicShare i).2 = .error .panic
      unfold ExpObj.getPublicShare
      rw [if_neg hi, h1]
      dsimp only
      rw [if_pos h2]
    | cons op ops ih =>
      intro o h1 h2
      cases op with
      | setBytes b =>
        refine ih _ ?_ ?_ <;>
        · unfold ExpObj.setBytes; split
          · assumption
          · dsimp only; split <;> assumption
      | get k =>
        by_cases hk : k = i
        · subst hk
          have : (o.getPublicShare k).1 = o := by
            unfold ExpObj.getPublicShare
            rw [if_neg hi, h1]; dsimp only; rw [if_pos h2]
          show ((ExpObj.run (o.getPublicShare k).1 ops).getPublicShare k).2 = _
          rw [this]; exact ih o h1 h2
        · refine ih _ ?_ ?_
          · unfold ExpObj.getPublicShare; split
            · exact h1
            · split
              · exact h1
              · split
                · exact h1
                · split
                  · dsimp only; rw [GoMap.lookup_insert_ne _ _ (fun h => hk h.symm)]; exact h1
                  · exact h1
          · unfold ExpObj.getPublicShare; split
            · exact h2
            · split
              · exact h2
              · split
                · exact h2
                · split
                  · exact List.mem_cons_of_mem _ h2
                  · exact List.mem_cons_of_mem _ h2
  have hq : (o.getPublicShare i).1.cache.lookup i = none ∧ i ∈ (o.getPublicShare i).1.onces := by
    unfold ExpObj.getPublicShare at hf ⊢
    rw [if_neg hi] at hf ⊢
    cases hl : GoMap.lookup o.cache i with
    | some v => rw [hl] at hf; cases hf
    | none =>
      rw [hl] at hf
      dsimp only at hf ⊢
      by_cases hm : i ∈ o.onces
      · rw [if_pos hm]; exact ⟨hl, hm⟩
      · rw [if_neg hm] at hf ⊢
        split at hf
        · cases hf
        · exact ⟨hl, List.mem_cons_self ..⟩
  exact key ops _ hq.1 hq.2

/-- Non-vacuity: an object with a nil coefficient; its share 3 is gone for good, also after 7 is decoded. -/
example : ((((⟨[none, none], [], []⟩ : ExpObj Bls.toy).getPublicShare 3).1.run [.setBytes ((Poly.mk [7]).exponent Bls.toy).marshal]).getPublicShare 3).2 = .error .panic :=
  C120_poisoned_index_refuted _ 3 (by decide) .panic rfl _

/-- What does not hold: SetBytes keeps the cache, so a public share asked for before stays that of the old polynomial, whatever is decoded afterwards and
however often. (So VerifyShare then accepts the shares of the old polynomial and refuses those of the new one.) -/
theorem C120_stale_share_refuted (p : Poly) (hp : p.coefs ≠ []) (i : Nat) (hi : i ≠ 0) (ops : List Op) :
    ((((ExpObj.of (p.exponent B)).getPublicShare i).1.run ops).getPublicShare i).2 = .ok (value p.coefs (i : Fr) • B.gen1) := by
  have key : ∀ (ops : List Op) (o : ExpObj B) (v : B.G1), o.cache.lookup i = some v → ((o.run ops).getPublicShare i).2 = .ok v := by
    intro ops
    induction ops with
    | nil =>
      intro o v hv
      show (o.getPublicShare i).2 = .ok v
      unfold ExpObj.getPublicShare
      rw [if_neg hi, hv]
    | cons op ops ih =>
      intro o v hv
      cases op with
      | setBytes b =>
        refine ih _ v ?_
        unfold ExpObj.setBytes; split
        · exact hv
        · dsimp only; split <;> exact hv
      | get k =>
        refine ih _ v ?_
        unfold ExpObj.getPublicShare; split
        · exact hv
        · split
          · exact hv
          · next hk =>
            have hne : i ≠ k := by rintro rfl; rw [hk] at hv; cases hv
            split
            · exact hv
            · split
              · dsimp only; rw [GoMap.lookup_insert_ne _ _ hne]; exact hv
              · exact hv
  refine key ops _ _ ?_
  have hc : (p.exponent B).compute i = .ok (value p.coefs (i : Fr) • B.gen1) := by
    rw [compute_eq _ hp, ofCoefs_value]
  unfold ExpObj.getPublicShare
  rw [if_neg hi]
  simp only [ExpObj.of, GoMap.lookup_nil, List.not_mem_nil, if_false, readAll_some, bind, Except.bind]
  have hc' : (⟨(p.exponent B).coefs⟩ : ExponentPoly B).compute i = .ok (value p.coefs (i : Fr) • B.gen1) := hc
  rw [hc']
  dsimp only
  rw [GoMap.lookup_insert_self]

end

/-- Non-vacuity: the share of index 1 of 5 + 3x, asked for before 7 is decoded into the object, stays 8. -/
example : ((((ExpObj.of ((Poly.mk [5, 3]).exponent Bls.toy)).getPublicShare 1).1.run [.setBytes ((Poly.mk [7]).exponent Bls.toy).marshal]).getPublicShare 1).2 =
      .ok (value [5, 3] ((1 : Nat) : Fr) • Bls.toy.gen1) ∧
    ExponentPoly.setBytes Bls.toy ((Poly.mk [7]).exponent Bls.toy).marshal = .ok ((Poly.mk [7]).exponent Bls.toy) ∧
    value [5, 3] ((1 : Nat) : Fr) ≠ value [7] ((1 : Nat) : Fr) := by
  refine ⟨C120_stale_share_refuted _ (by decide) 1 (by decide) _, (C38_exponent_poly _ _ (by decide) []).1, ?_⟩
  simp [value, Fin.sum_univ_succ]
  decide +kernel

/-! ### C121 -/

theorem equal_go (a b : List Fr) (h : a.length = b.length) : PolyObj.equal.go (a.map some) (b.map some) = .ok (decide (a = b)) := by
  induction a generalizing b with
  | nil => cases b with
    | nil => rfl
    | cons => simp at h
  | cons x a ih =>
    cases b with
    | nil => simp at h
    | cons y b =>
      simp only [List.map_cons, PolyObj.equal.go]
      by_cases hxy : x = y
      · rw [if_pos hxy, ih b (by simpa using h)]; simp [hxy]
      · rw [if_neg hxy]; simp [hxy]

/-- C121: Equal compares coefficients, Copy makes an equal polynomial; and of two polynomials with the same number of coefficients, Equal holds exactly if
as many of their shares agree. -/
theorem C121_equal (p q : Poly) :
    (PolyObj.of p).equal (PolyObj.of q) = .ok (decide (p = q)) ∧ (PolyObj.of p).copy = .ok (PolyObj.of p) ∧
    ∀ n, p.coefs.length = q.coefs.length → p.coefs.length ≤ n → n < 2 ^ 63 →
      ((PolyObj.of p).equal (PolyObj.of q) = .ok true ↔ p.createShares n = q.createShares n) := by
  have heq : (PolyObj.of p).equal (PolyObj.of q) = .ok (decide (p = q)) := by
    unfold PolyObj.equal PolyObj.of
    by_cases hl : p.coefs.length = q.coefs.length
    · simp only [List.length_map, hl, ne_eq, not_true, if_false]
      rw [equal_go _ _ hl]
      congr 1
      cases p; cases q; simp
    · simp only [List.length_map, ne_eq, hl, not_false_iff, if_true]
      have : p ≠ q := by rintro rfl; exact hl rfl
      simp [this]
  refine ⟨heq, by simp only [PolyObj.copy, PolyObj.of, readAll_some, bind, Except.bind], ?_⟩
  intro n hl hn hb
  rw [heq]
  simp only [Except.ok.injEq, decide_eq_true_eq]
  constructor
  · rintro rfl; rfl
  · intro hs
    have hev : ∀ j, j < n → p.eval ((j : Int) + 1) = q.eval ((j : Int) + 1) := by
      intro j hj
      have := congrArg (fun l => l[j]?) hs
      simpa [Poly.createShares, hj] using this
    have : ofCoefs p.coefs = ofCoefs q.coefs := by
      refine Polynomial.eq_of_degrees_lt_of_eval_index_eq (s := Finset.range n) (v := fun (j : Nat) => frOfInt ((j : Int) + 1)) ?_ ?_ ?_ ?_
      · intro a ha b hb' hab
        have ha := Finset.mem_range.1 ha
        have hb' := Finset.mem_range.1 hb'
        have := frOfInt_inj (i := (a : Int) + 1) (j := (b : Int) + 1) ⟨by omega, by omega⟩ ⟨by omega, by omega⟩ hab
        omega
      · rw [Finset.card_range]
        exact lt_of_lt_of_le (degree_ofCoefs _) (by exact_mod_cast hn)
      · rw [Finset.card_range]
        exact lt_of_lt_of_le (degree_ofCoefs _) (by rw [← hl]; exact_mod_cast hn)
      · intro j hj
        have := hev j (Finset.mem_range.1 hj)
        rw [eval_poly, eval_poly] at this
        exact this
    have := ofCoefs_inj hl this
    cases p; cases q; simp_all

/-- What does not hold: polynomials with all shares in common can be unequal, if one has more (zero) coefficients; and a polynomial decoded in vain makes
Equal panic. -/
theorem C121_equal_is_not_sameness_refuted : ∃ p q : Poly, (∀ n, p.createShares n = q.createShares n) ∧ (PolyObj.of p).equal (PolyObj.of q) = .ok false ∧
    (((PolyObj.of p).setBytes [0, 0, 0, 1]).1.equal (PolyObj.of p)) = .error .panic := by
  refine ⟨⟨[5]⟩, ⟨[5, 0]⟩, fun n => ?_, ?_, ?_⟩
  · simp [Poly.createShares, Poly.eval, Poly.horner]
  · rw [(C121_equal _ _).1]; simp
  · decide +kernel

example : (PolyObj.of ⟨[5, 3]⟩).equal (PolyObj.of ⟨[5, 3]⟩) = .ok true ∧ (PolyObj.of ⟨[5, 3]⟩).equal (PolyObj.of ⟨[5, 4]⟩) = .ok false := by
  rw [(C121_equal _ _).1, (C121_equal _ _).1]
  decide +kernel

end Resmix.Tibe
