import Verif.Proofs.Ibe
set_option autoImplicit false
namespace Resmix.Tibe
open Polynomial

theorem reconstruct_sum (outer : GoMap Int Fr) (inner : Int → List Int) (keys : List Int) (acc : Fr)
    (h : ∀ e ∈ outer, (inner e.1).Perm keys) :
    outer.foldl (fun acc (xi, yi) =>
      let nd := (inner xi).foldl (fun (nd : Fr × Fr) xj =>
        if xj = xi then nd else (nd.1 * frOfInt xj, nd.2 * (frOfInt xj - frOfInt xi))) (yi, 1)
      acc + nd.1 * nd.2⁻¹) acc = acc + (outer.map fun e => lagrangeMult keys e.1 * e.2).sum := by
  induction outer generalizing acc with
  | nil => simp
  | cons e outer ih =>
    obtain ⟨xi, yi⟩ := e
    rw [List.foldl_cons, ih _ fun e he => h e (by simp [he])]
    simp only [lagrange_fold, List.map_cons, List.sum_cons, one_mul]
    have := lagrangeMult_perm (h (xi, yi) (by simp)) xi
    simp only at this
    rw [← this, lagrangeMult_eq]
    ring

theorem reconstructSecret_eq (p : Poly) (outer : GoMap Int Fr) (inner : Int → List Int)
    (hn : GoMap.NodupKeys outer) (hI : ∀ e ∈ outer, IsInt e.1) (hv : ∀ e ∈ outer, e.2 = p.eval e.1)
    (hin : ∀ e ∈ outer, (inner e.1).Perm (outer.map Prod.fst)) (hd : p.coefs.length ≤ outer.length) :
    reconstructSecret outer inner = p.eval 0 := by
  unfold reconstructSecret
  rw [reconstruct_sum outer inner (outer.map Prod.fst) 0 hin, zero_add]
  have := lagrange_sum (outer.map Prod.fst) hn (by
      intro i hi; rw [List.mem_map] at hi; obtain ⟨e, he, rfl⟩ := hi; exact hI e he) (ofCoefs p.coefs)
    ((degree_ofCoefs _).trans_le (by rw [List.length_map]; exact_mod_cast hd))
  rw [eval_poly, frOfInt_zero, ← this, List.map_map]
  congr 1
  refine List.map_congr_left fun e he => ?_
  simp [hv e he, eval_poly]

/-- Every polynomial of degree below `n` is given by a coefficient list of length `n`. -/
theorem exists_coefs (f : Fr[X]) (n : Nat) (hd : f.degree < (n : WithBot ℕ)) :
    ∃ cs : List Fr, cs.length = n ∧ ofCoefs cs = f := by
  refine ⟨(List.range n).map f.coeff, by simp, ?_⟩
  ext m
  rw [ofCoefs_coeff]
  by_cases hm : m < n
  · simp [List.getD, hm]
  · rw [coeff_eq_zero_of_degree_lt (hd.trans_le (by exact_mod_cast not_lt.1 hm))]
    simp [List.getD, hm]

theorem ofCoefs_inj {a b : List Fr} (hl : a.length = b.length) (h : ofCoefs a = ofCoefs b) : a = b := by
  refine List.ext_getElem hl fun i ha hb => ?_
  have := congrArg (fun f => coeff f i) h
  simp only [ofCoefs_coeff] at this
  simpa [List.getD, ha, hb] using this

/-- Interpolation through the secret and at most `d` shares. -/
theorem exists_consistent (d : Nat) (shares : List PolyShare) (hl : shares.length ≤ d)
    (hn : (shares.map (·.index)).Nodup) (hnz : ∀ s ∈ shares, s.index ≠ 0) (hI : ∀ s ∈ shares, IsInt s.index) (secret : Fr) :
    ∃ cs : List Fr, cs.length = d + 1 ∧ (ofCoefs cs).eval 0 = secret ∧
      ∀ s ∈ shares, (ofCoefs cs).eval (frOfInt s.index) = s.value := by
  let idx : List Int := 0 :: shares.map (·.index)
  have hnd : idx.Nodup := by
    refine List.nodup_cons.2 ⟨?_, hn⟩
    intro h; rw [List.mem_map] at h; obtain ⟨s, hs, h0⟩ := h; exact hnz s hs h0
  have hIdx : ∀ i ∈ idx, IsInt i := by
    intro i hi
    rcases List.mem_cons.1 hi with rfl | hi
    · exact ⟨by norm_num, by norm_num⟩
    · rw [List.mem_map] at hi; obtain ⟨s, hs, rfl⟩ := hi; exact hI s hs
  have hinj : Set.InjOn frOfInt (idx.toFinset : Set Int) := by
    intro a ha b hb h
    exact frOfInt_inj (hIdx a (by simpa [-List.mem_cons] using ha)) (hIdx b (by simpa [-List.mem_cons] using hb)) h
  let y : Int → Fr := fun i => if i = 0 then secret else ((shares.find? (fun s => s.index = i)).map (·.value)).getD 0
  obtain ⟨cs, hcl, hcs⟩ := exists_coefs (Lagrange.interpolate idx.toFinset frOfInt y) (d + 1) (by
    refine (Lagrange.degree_interpolate_lt _ hinj).trans_le ?_
    rw [List.toFinset_card_of_nodup hnd]
    simp only [idx, List.length_cons, List.length_map]
    exact_mod_cast Nat.succ_le_succ hl)
  refine ⟨cs, hcl, ?_, ?_⟩
  · have := Lagrange.eval_interpolate_at_node y hinj (i := 0) (by simp [idx])
    rw [frOfInt_zero] at this
    rw [hcs, this]; simp [y]
  · intro s hs
    have := Lagrange.eval_interpolate_at_node y hinj (i := s.index) (by simp [idx]; exact Or.inr ⟨s, hs, rfl⟩)
    rw [hcs, this]
    simp only [y, if_neg (hnz s hs)]
    have hf : shares.find? (fun t => t.index = s.index) = some s := by
      clear this hcs hcl cs y hinj hIdx hnd idx hI hnz hl
      induction shares with
      | nil => simp at hs
      | cons t l ih =>
        rw [List.map_cons, List.nodup_cons] at hn
        rcases List.mem_cons.1 hs with rfl | hs
        · simp
        · rw [List.find?_cons_of_neg]
          · exact ih hn.2 hs
          · simp only [decide_eq_true_eq]
            intro h; exact hn.1 (List.mem_map.2 ⟨s, hs, h.symm⟩)
    rw [hf]; rfl

theorem consistent_unique (d : Nat) (shares : List PolyShare) (hl : shares.length = d)
    (hn : (shares.map (·.index)).Nodup) (hnz : ∀ s ∈ shares, s.index ≠ 0) (hI : ∀ s ∈ shares, IsInt s.index)
    (a b : List Fr) (ha : a.length = d + 1) (hb : b.length = d + 1) (h0 : (ofCoefs a).eval 0 = (ofCoefs b).eval 0)
    (hs : ∀ s ∈ shares, (ofCoefs a).eval (frOfInt s.index) = (ofCoefs b).eval (frOfInt s.index)) : a = b := by
  refine ofCoefs_inj (ha.trans hb.symm) ?_
  let idx : List Int := 0 :: shares.map (·.index)
  have hnd : idx.Nodup := by
    refine List.nodup_cons.2 ⟨?_, hn⟩
    intro h; rw [List.mem_map] at h; obtain ⟨s, hs, h0⟩ := h; exact hnz s hs h0
  have hIdx : ∀ i ∈ idx, IsInt i := by
    intro i hi
    rcases List.mem_cons.1 hi with rfl | hi
    · exact ⟨by norm_num, by norm_num⟩
    · rw [List.mem_map] at hi; obtain ⟨s, hs, rfl⟩ := hi; exact hI s hs
  have hinj : Set.InjOn frOfInt (idx.toFinset : Set Int) := by
    intro a ha b hb h
    exact frOfInt_inj (hIdx a (by simpa [-List.mem_cons] using ha)) (hIdx b (by simpa [-List.mem_cons] using hb)) h
  have hcard : idx.toFinset.card = d + 1 := by
    rw [List.toFinset_card_of_nodup hnd]; simp [idx, hl]
  refine eq_of_degrees_lt_of_eval_index_eq idx.toFinset hinj ?_ ?_ ?_
  · rw [hcard, ← ha]; exact degree_ofCoefs a
  · rw [hcard, ← hb]; exact degree_ofCoefs b
  · intro i hi
    rw [List.mem_toFinset] at hi
    rcases List.mem_cons.1 hi with rfl | hi
    · rw [frOfInt_zero]; exact h0
    · rw [List.mem_map] at hi; obtain ⟨s, hs', rfl⟩ := hi; exact hs s hs'

theorem ofCoefs_zipWith (a b : List Fr) (h : a.length = b.length) : ofCoefs (List.zipWith (· + ·) a b) = ofCoefs a + ofCoefs b := by
  ext m
  rw [coeff_add, ofCoefs_coeff, ofCoefs_coeff, ofCoefs_coeff]
  by_cases hm : m < a.length
  · have hmb : m < b.length := h ▸ hm
    simp [List.getD, hm, hmb]
  · have hmb : ¬ m < b.length := h ▸ hm
    simp [List.getD, List.getElem?_eq_none (not_lt.1 hm), List.getElem?_zipWith, List.getElem?_eq_none (not_lt.1 hmb)]

theorem ofCoefs_neg (a : List Fr) : ofCoefs (a.map Neg.neg) = - ofCoefs a := by
  ext m
  rw [coeff_neg, ofCoefs_coeff, ofCoefs_coeff]
  by_cases hm : m < a.length
  · simp [List.getD, hm]
  · simp [List.getD, List.getElem?_eq_none (not_lt.1 hm)]

end Resmix.Tibe
