import Mathlib.LinearAlgebra.Lagrange
import Mathlib.FieldTheory.Finite.GaloisField
import Verif.Model.Ecc
set_option autoImplicit false
/-
The contract `RS` is satisfiable for all k ≥ 1 with k + m ≤ 256: evaluation of polynomials of degree < k over the field with 256
elements at the points 0, 1, ..., k+m-1.
-/
namespace Resmix.Ecc
open Polynomial

/-- The field with 256 elements. -/
abbrev GF := GaloisField 2 8

instance : Fintype UInt8 := Fintype.ofEquiv (Fin 256) ⟨UInt8.ofFin, UInt8.toFin, fun _ => rfl, fun _ => rfl⟩

theorem exists_gfEquiv : Nonempty (UInt8 ≃ GF) := by
  classical
  haveI : Finite GF := inferInstance
  haveI : Fintype GF := Fintype.ofFinite GF
  refine ⟨Fintype.equivOfCardEq ?_⟩
  have h1 : Fintype.card UInt8 = 256 := by
    rw [Fintype.card_congr (⟨UInt8.toFin, UInt8.ofFin, fun _ => rfl, fun _ => rfl⟩ : UInt8 ≃ Fin 256)]; simp
  have h2 : Fintype.card GF = 256 := by
    rw [← Nat.card_eq_fintype_card, GaloisField.card 2 8 (by decide)]; norm_num
  rw [h1, h2]

/-- Some identification of bytes with field elements. -/
noncomputable def gf : UInt8 ≃ GF := Classical.choice exists_gfEquiv

/-- The i-th evaluation point. -/
noncomputable def pt (i : Nat) : GF := gf (UInt8.ofNat i)

theorem pt_inj (s : Finset Nat) (h : ∀ i ∈ s, i < 256) : Set.InjOn pt s := by
  intro a ha b hb hab
  have ha' := h a ha
  have hb' := h b hb
  have := gf.injective hab
  have h2 := congrArg UInt8.toNat this
  simp only [UInt8.toNat_ofNat'] at h2
  omega

/-- Byte `b` of shard `i`. -/
noncomputable def symb (shards : List Bytes) (b i : Nat) : GF := gf ((shards.getD i []).getD b 0)

/-- The polynomial through column `b` of the shards with indices in `s`. -/
noncomputable def colPoly (s : Finset Nat) (shards : List Bytes) (b : Nat) : GF[X] := Lagrange.interpolate s pt (symb shards b)

/-- Shard `j` computed from the shards with indices in `s`. -/
noncomputable def evalShard (s : Finset Nat) (shards : List Bytes) (n j : Nat) : Bytes :=
  (List.range n).map fun b => gf.symm ((colPoly s shards b).eval (pt j))

/-- The indices of the shards that are present. -/
noncomputable def present (view : List Bytes) : Finset Nat := (Finset.range view.length).filter fun i => view.getD i [] ≠ []

theorem card_present (view : List Bytes) : (present view).card = view.countP (· ≠ []) := by
  induction view using List.reverseRecOn with
  | nil => rfl
  | append_singleton l a ih =>
    rw [List.countP_append, ← ih]
    unfold present
    rw [List.length_append, List.length_singleton, Finset.range_add_one, Finset.filter_insert]
    have hlast : (l ++ [a]).getD l.length [] = a := by simp
    have hcongr : (Finset.range l.length).filter (fun i => (l ++ [a]).getD i [] ≠ []) =
        (Finset.range l.length).filter (fun i => l.getD i [] ≠ []) := by
      apply Finset.filter_congr
      intro i hi
      have hi' := Finset.mem_range.1 hi
      simp [List.getD, List.getElem?_append_left hi']
    rw [hlast, hcongr]
    by_cases h : a = []
    · simp [h]
    · rw [if_pos (by simpa using h), Finset.card_insert_of_notMem (by simp)]
      simp [h]

/-- Reed-Solomon codes satisfy the contract. -/
noncomputable def rsCode (k m : Nat) (hk : 0 < k) (h : k + m ≤ 256) : RS where
  k := k
  m := m
  kpos := hk
  parity := fun ds => (List.range m).map fun j => evalShard (Finset.range k) ds (ds.getD 0 []).length (k + j)
  parity_shape := by
    intro ds n hl hn
    refine ⟨by simp, ?_⟩
    intro p hp
    obtain ⟨j, _, rfl⟩ := List.mem_map.1 hp
    have : (ds.getD 0 []).length = n := by
      have : ds.getD 0 [] = ds[0]'(by omega) := by simp [List.getD, List.getElem?_eq_getElem (show 0 < ds.length by omega)]
      rw [this]; exact hn _ (List.getElem_mem _)
    simp only [evalShard, List.length_map, List.length_range]
    exact this
  recover := fun view => (List.range (k + m)).map fun j => evalShard (present view) view (shardSize view) j
  recover_spec := by
    intro ds n view hn hl hdn hv hc
    have h0 : (ds.getD 0 []).length = n := by
      have : ds.getD 0 [] = ds[0]'(by omega) := by simp [List.getD, List.getElem?_eq_getElem (show 0 < ds.length by omega)]
      rw [this]; exact hdn _ (List.getElem_mem _)
    set par := (List.range m).map fun j => evalShard (Finset.range k) ds (ds.getD 0 []).length (k + j) with hpar
    have hinjk : Set.InjOn pt (Finset.range k) := pt_inj _ (fun i hi => by have := Finset.mem_range.1 hi; omega)
    -- every shard of the full word is an evaluation of the data polynomial
    have hfull : ∀ i, i < k + m → (ds ++ par).getD i [] = evalShard (Finset.range k) ds n i := by
      intro i hi
      by_cases hik : i < k
      · have e1 : (ds ++ par).getD i [] = ds[i]'(by omega) := by
          simp [List.getD, List.getElem?_append_left (show i < ds.length by omega), List.getElem?_eq_getElem (show i < ds.length by omega)]
        rw [e1]
        have hli := hdn _ (List.getElem_mem (show i < ds.length by omega))
        apply List.ext_getElem
        · simp [evalShard, hli]
        · intro b hb hb'
          simp only [evalShard, List.getElem_map, List.getElem_range, colPoly]
          rw [Lagrange.eval_interpolate_at_node _ hinjk (Finset.mem_range.2 hik)]
          simp [symb, List.getD, List.getElem?_eq_getElem (show i < ds.length by omega), List.getElem?_eq_getElem hb]
      · have e1 : (ds ++ par).getD i [] = par[i - k]'(by simp [hpar]; omega) := by
          simp only [List.getD]
          rw [List.getElem?_append_right (by omega), hl, List.getElem?_eq_getElem (by simp [hpar]; omega)]; rfl
        rw [e1]
        simp only [hpar, List.getElem_map, List.getElem_range, h0]
        congr 1; omega
    have hfl : (ds ++ par).length = k + m := by simp [hl, hpar]
    have hvl : view.length = k + m := by rw [hv.length_eq, hfl]
    have hvget : ∀ i, i < k + m → view.getD i [] = [] ∨ view.getD i [] = evalShard (Finset.range k) ds n i := by
      intro i hi
      have := hv.get (i := i) (by omega) (by omega)
      simp only [List.get_eq_getElem] at this
      have e1 : view.getD i [] = view[i]'(by omega) := by simp [List.getD, List.getElem?_eq_getElem (show i < view.length by omega)]
      have e2 : (ds ++ par).getD i [] = (ds ++ par)[i]'(by omega) := by
        simp only [List.getD]; rw [List.getElem?_eq_getElem (show i < (ds ++ par).length by omega)]; rfl
      rw [← hfull i hi, e1, e2]; exact this
    have hsize : shardSize view = n := by
      have gen : ∀ l : List Bytes, (∀ s ∈ l, s.length = 0 ∨ s.length = n) → (∃ s ∈ l, s ≠ []) → shardSize l = n := by
        intro l
        induction l with
        | nil => rintro _ ⟨s, hs, _⟩; simp at hs
        | cons s l ih =>
          intro hsz hex
          rw [shardSize]
          split
          · next hz =>
            apply ih (fun x hx => hsz x (List.mem_cons_of_mem _ hx))
            obtain ⟨x, hx, hne⟩ := hex
            rcases List.mem_cons.1 hx with rfl | hx
            · exact absurd (List.length_eq_zero_iff.1 hz) hne
            · exact ⟨x, hx, hne⟩
          · next hz =>
            rcases hsz s List.mem_cons_self with h | h
            · exact absurd h hz
            · exact h
      apply gen
      · intro s hs
        obtain ⟨i, hi, rfl⟩ := List.mem_iff_getElem.1 hs
        have e1 : view.getD i [] = view[i] := by simp [List.getD, List.getElem?_eq_getElem hi]
        rcases hvget i (by omega) with h | h
        · left; rw [← e1, h]; rfl
        · right; rw [← e1, h]; simp [evalShard]
      · have : 0 < view.countP (· ≠ []) := by omega
        obtain ⟨s, hs1, hs2⟩ := List.countP_pos_iff.1 this
        exact ⟨s, hs1, by simpa using hs2⟩
    have hpres : ∀ i ∈ present view, i < 256 := by
      intro i hi
      have := Finset.mem_range.1 (Finset.mem_filter.1 hi).1
      omega
    have hcard : k ≤ (present view).card := by rw [card_present]; exact hc
    have hpoly : ∀ b, b < n → colPoly (present view) view b = colPoly (Finset.range k) ds b := by
      intro b hb
      unfold colPoly
      symm
      apply Lagrange.eq_interpolate_of_eval_eq _ (pt_inj _ hpres)
      · refine lt_of_lt_of_le (Lagrange.degree_interpolate_lt _ hinjk) ?_
        simp only [Finset.card_range]
        exact_mod_cast hcard
      · intro i hi
        have hi' := Finset.mem_filter.1 hi
        have hlt : i < k + m := by have := Finset.mem_range.1 hi'.1; omega
        rcases hvget i hlt with hh | hh
        · exact absurd hh hi'.2
        · show _ = gf ((view.getD i []).getD b 0)
          rw [hh]
          have e : (evalShard (Finset.range k) ds n i).getD b 0 =
              gf.symm ((colPoly (Finset.range k) ds b).eval (pt i)) := by
            unfold evalShard
            simp only [List.getD]
            rw [List.getElem?_map, List.getElem?_range hb]; rfl
          rw [e, Equiv.apply_symm_apply]; rfl
    apply List.ext_getElem
    · simp [hfl]
    · intro j hj hj'
      have hjlt : j < k + m := by simpa using hj
      have e2 : (ds ++ par).getD j [] = (ds ++ par)[j] := by
        simp only [List.getD]; rw [List.getElem?_eq_getElem hj']; rfl
      rw [← e2, hfull j hjlt]
      simp only [List.getElem_map, List.getElem_range, hsize, evalShard]
      apply List.map_congr_left
      intro b hb
      rw [hpoly b (List.mem_range.1 hb)]

end Resmix.Ecc
