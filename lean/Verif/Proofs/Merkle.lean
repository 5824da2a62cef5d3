import Verif.Model.Merkle
import Verif.Proofs.GoMap
import Mathlib.Data.Nat.Bitwise
import Mathlib.Data.List.Sort
import Mathlib.Tactic.Ring
set_option autoImplicit false
namespace Resmix.Merkle

theorem siblingPos_even {p : Nat} (h : p % 2 = 0) : siblingPos p = p + 1 := Nat.xor_one_of_even (Nat.even_iff.2 h)
theorem siblingPos_odd {p : Nat} (h : p % 2 = 1) : siblingPos p = p - 1 := Nat.xor_one_of_odd (Nat.odd_iff.2 h)

theorem siblingPos_eq (p : Nat) : siblingPos p = if p % 2 = 0 then p + 1 else p - 1 := by
  split
  · next h => exact siblingPos_even h
  · exact siblingPos_odd (by omega)

/-- The digest at position `p` of a layer. -/
def at' (L : List Digest) (p : Nat) : Digest := L.getD p .zero

theorem layerUp_length (H : HashFn) (L : List Digest) : (layerUp H L).length = (L.length + 1) / 2 := by
  induction L using layerUp.induct with
  | case1 => rfl
  | case2 a => simp [layerUp]
  | case3 a b t ih => simp only [layerUp, List.length_cons, ih]; omega

theorem layerUp_at (H : HashFn) (L : List Digest) (p : Nat) (hp : p < (layerUp H L).length) :
    at' (layerUp H L) p = H (pairBytes (at' L (2 * p)) (at' L (2 * p + 1))) := by
  induction L using layerUp.induct generalizing p with
  | case1 => simp [layerUp] at hp
  | case2 a =>
    have : p = 0 := by simp [layerUp] at hp; omega
    subst this; rfl
  | case3 a b t ih =>
    cases p with
    | zero => rfl
    | succ p =>
      have := ih p (by simpa [layerUp] using hp)
      simp only [layerUp]
      unfold at' at this ⊢
      rw [List.getD_cons_succ, this, show 2 * (p + 1) = (2 * p) + 1 + 1 from by ring]
      rfl

/-- The layers above a non-empty layer. -/
inductive IsTree (H : HashFn) : List Digest → Tree → Prop
  | top (a : Digest) : IsTree H [a] [[a]]
  | up (L : List Digest) (t : Tree) : 1 < L.length → IsTree H (layerUp H L) t → IsTree H L (L :: t)

theorem buildUp_isTree (H : HashFn) (fuel : Nat) (L : List Digest) (h0 : 0 < L.length) (hf : L.length ≤ fuel) :
    IsTree H L (buildUp H fuel L) := by
  induction fuel generalizing L with
  | zero => omega
  | succ fuel ih =>
    unfold buildUp
    split
    · next h =>
      have := layerUp_length H L
      exact .up L _ h (ih _ (by omega) (by omega))
    · next h =>
      match L, h0, h with
      | [a], _, _ => exact .top a
      | _ :: _ :: _, _, h => simp at h

theorem IsTree.length_le {H : HashFn} {L : List Digest} {t : Tree} (h : IsTree H L t) :
    ∀ k, L.length ≤ 2 ^ k → t.length ≤ k + 1 := by
  induction h with
  | top a => intro k _; simp
  | up L t h1 _ ih =>
    intro k hk
    cases k with
    | zero => simp at hk; omega
    | succ k =>
      have := layerUp_length H L
      have := ih k (by rw [pow_succ] at hk; omega)
      simp; omega

theorem IsTree.ne_nil {H : HashFn} {L : List Digest} {t : Tree} (h : IsTree H L t) : t ≠ [] := by
  cases h <;> simp

theorem IsTree.head {H : HashFn} {L : List Digest} {t : Tree} (h : IsTree H L t) : ∃ u, t = L :: u := by
  cases h with
  | top a => exact ⟨_, rfl⟩
  | up L t => exact ⟨_, rfl⟩

/-- The root is the only digest of the last layer. -/
theorem IsTree.root {H : HashFn} {L : List Digest} {t : Tree} (h : IsTree H L t) : ∃ a, t.getLast? = some [a] ∧ Merkle.root t = .ok a := by
  induction h with
  | top a => exact ⟨a, rfl, rfl⟩
  | up L t h1 h2 ih =>
    obtain ⟨a, ha, _⟩ := ih
    obtain ⟨u, rfl⟩ := h2.head
    refine ⟨a, by simpa [List.getLast?_cons_cons] using ha, ?_⟩
    have : (L :: layerUp H L :: u).getLast? = some [a] := by simpa [List.getLast?_cons_cons] using ha
    unfold Merkle.root
    rw [this]; rfl

/-! ### One level of a proof -/

/-- Positions of the next layer. -/
def ups : List Nat → List Nat
  | [] => []
  | [p] => [p / 2]
  | p :: p' :: r => if p' = siblingPos p then p / 2 :: ups r else p / 2 :: ups (p' :: r)

/-- Positions of the siblings asked for. -/
def hintPos : List Nat → List Nat
  | [] => []
  | [p] => [siblingPos p]
  | p :: p' :: r => if p' = siblingPos p then hintPos r else siblingPos p :: hintPos (p' :: r)

theorem plUp_prove (H : HashFn) (t : Tree) (l : Nat) (L : List Digest) (hL : t[l]? = some L) (ps : List Nat) :
    ∀ (pl : PartialLayer) (hints : List Digest), pl.map Prod.fst = ps →
      ∃ pl', plUp H false l ⟨some t, hints⟩ pl = .ok (pl', ⟨some t, hints ++ (hintPos ps).map (at' L)⟩) ∧ pl'.map Prod.fst = ups ps := by
  induction ps using ups.induct with
  | case1 =>
    intro pl hints h
    rw [List.map_eq_nil_iff] at h; subst h
    exact ⟨[], by simp [plUp, hintPos], rfl⟩
  | case2 p =>
    intro pl hints h
    match pl, h with
    | [(q, d)], h =>
      simp only [List.map_cons, List.map_nil, List.cons.injEq, and_true] at h
      subst h
      refine ⟨[nextItem H false q d (at' L (siblingPos q))], ?_, rfl⟩
      simp only [plUp, Siblings.get, hL]
      rfl
  | case3 p r ih =>
    intro pl hints h
    match pl, h with
    | (q, d) :: (q', d') :: pl, h =>
      simp only [List.map_cons, List.cons.injEq] at h
      obtain ⟨rfl, rfl, h⟩ := h
      obtain ⟨pl', h1, h2⟩ := ih pl hints h
      refine ⟨nextItem H false q d d' :: pl', ?_, ?_⟩
      · simp only [plUp, if_true, h1, hintPos]; rfl
      · simp only [List.map_cons, h2, ups, if_true]; rfl
  | case4 p p' r hne ih =>
    intro pl hints h
    match pl, h with
    | (q, d) :: (q', d') :: pl, h =>
      simp only [List.map_cons, List.cons.injEq] at h
      obtain ⟨rfl, rfl, h⟩ := h
      obtain ⟨pl', h1, h2⟩ := ih ((q', d') :: pl) (hints ++ [at' L (siblingPos q)]) (by simp only [List.map_cons]; congr 1)
      refine ⟨nextItem H false q d (at' L (siblingPos q)) :: pl', ?_, ?_⟩
      · simp only [plUp, if_neg hne, Siblings.get, hL, hintPos]
        simp only [List.append_assoc] at h1
        simp only [bind, Except.bind]
        rw [show List.getD L (siblingPos q) Digest.zero = at' L (siblingPos q) from rfl, h1]
        simp
      · simp only [List.map_cons, h2, ups, if_neg hne]; rfl

/-- The partial layer with the true digests. -/
def trueItems (L : List Digest) (ps : List Nat) : PartialLayer := ps.map fun p => (p, at' L p)

theorem nextItem_true (H : HashFn) (L : List Digest) (p : Nat) (hp : p < L.length) :
    nextItem H true p (at' L p) (at' L (siblingPos p)) = (p / 2, at' (layerUp H L) (p / 2)) := by
  have hlen := layerUp_length H L
  rw [layerUp_at H L (p / 2) (by omega)]
  unfold nextItem
  simp only [if_true]
  split
  · next h => rw [siblingPos_even h, show 2 * (p / 2) = p from by omega]
  · next h => rw [siblingPos_odd (by omega), show 2 * (p / 2) = p - 1 from by omega, show p - 1 + 1 = p from by omega]

theorem plUp_verify (H : HashFn) (l : Nat) (L : List Digest) (ps : List Nat) (rest : List Digest) (hps : ∀ p ∈ ps, p < L.length) :
    plUp H true l ⟨none, (hintPos ps).map (at' L) ++ rest⟩ (trueItems L ps) = .ok (trueItems (layerUp H L) (ups ps), ⟨none, rest⟩) := by
  induction ps using ups.induct with
  | case1 => rfl
  | case2 p =>
    have := nextItem_true H L p (hps p (by simp))
    simp only [trueItems, List.map_cons, List.map_nil, plUp, hintPos, Siblings.get, List.cons_append, List.nil_append, ups, ← this]
    rfl
  | case3 p r ih =>
    have := nextItem_true H L p (hps p (by simp))
    have ih := ih (fun q hq => hps q (by simp [hq]))
    simp only [trueItems] at ih ⊢
    simp only [List.map_cons, plUp, hintPos, if_true, ups, ← this, ih]
    rfl
  | case4 p p' r hne ih =>
    have := nextItem_true H L p (hps p (by simp))
    have ih := ih (fun q hq => hps q (List.mem_cons_of_mem _ hq))
    simp only [trueItems, List.map_cons] at ih ⊢
    simp only [plUp, hintPos, if_neg hne, ups, Siblings.get, List.map_cons, List.cons_append, ← this]
    simp only [bind, Except.bind]
    rw [ih]

theorem ups_range (L : List Digest) (H : HashFn) (ps : List Nat) (hps : ∀ p ∈ ps, p < L.length) :
    ∀ p ∈ ups ps, p < (layerUp H L).length := by
  have hlen := layerUp_length H L
  induction ps using ups.induct with
  | case1 => simp [ups]
  | case2 p => have := hps p (by simp); simp only [ups, List.mem_singleton]; rintro q rfl; omega
  | case3 p r ih =>
    have := hps p (by simp)
    simp only [ups, if_true, List.mem_cons]
    rintro q (rfl | hq)
    · omega
    · exact ih (fun q hq => hps q (by simp [hq])) q hq
  | case4 p p' r hne ih =>
    have := hps p (by simp)
    simp only [ups, if_neg hne, List.mem_cons]
    rintro q (rfl | hq)
    · omega
    · exact ih (fun q hq => hps q (List.mem_cons_of_mem _ hq)) q hq

theorem ups_mem (ps : List Nat) (q : Nat) (hq : q ∈ ups ps) : ∃ p ∈ ps, q = p / 2 := by
  induction ps using ups.induct with
  | case1 => simp [ups] at hq
  | case2 p => simp only [ups, List.mem_singleton] at hq; exact ⟨p, by simp, hq⟩
  | case3 p r ih =>
    simp only [ups, if_true, List.mem_cons] at hq
    rcases hq with rfl | hq
    · exact ⟨p, by simp, rfl⟩
    · obtain ⟨x, hx, rfl⟩ := ih hq; exact ⟨x, by simp [hx], rfl⟩
  | case4 p p' r hne ih =>
    simp only [ups, if_neg hne, List.mem_cons] at hq
    rcases hq with rfl | hq
    · exact ⟨p, by simp, rfl⟩
    · obtain ⟨x, hx, rfl⟩ := ih hq; exact ⟨x, List.mem_cons_of_mem _ hx, rfl⟩

theorem ups_sorted (ps : List Nat) (h : ps.Pairwise (· < ·)) : (ups ps).Pairwise (· < ·) := by
  induction ps using ups.induct with
  | case1 => simp [ups]
  | case2 p => simp [ups]
  | case3 p r ih =>
    simp only [ups, if_true]
    rw [List.pairwise_cons] at h
    have h2 := List.pairwise_cons.1 h.2
    rw [List.pairwise_cons]
    refine ⟨?_, ih h2.2⟩
    intro q hq
    obtain ⟨x, hx, rfl⟩ := ups_mem r q hq
    have h3 := h2.1 x hx
    have h4 := h.1 (siblingPos p) (by simp)
    by_cases hev : p % 2 = 0
    · rw [siblingPos_even hev] at h3; omega
    · rw [siblingPos_odd (by omega)] at h4; omega
  | case4 p p' r hne ih =>
    simp only [ups, if_neg hne]
    rw [List.pairwise_cons] at h
    rw [List.pairwise_cons]
    refine ⟨?_, ih h.2⟩
    intro q hq
    obtain ⟨x, hx, rfl⟩ := ups_mem _ q hq
    have h4 := h.1 p' (by simp)
    have hx' : p' ≤ x := by
      rcases List.mem_cons.1 hx with rfl | hx
      · exact Nat.le_refl _
      · exact Nat.le_of_lt ((List.pairwise_cons.1 h.2).1 x hx)
    rw [siblingPos_eq] at hne
    split at hne <;> omega

theorem ups_ne_nil (ps : List Nat) (h : ps ≠ []) : ups ps ≠ [] := by
  match ps, h with
  | [p], _ => simp [ups]
  | p :: p' :: r, _ => unfold ups; split <;> simp

theorem continue_cond (ps : List Nat) (h : ps ≠ []) : 0 < (hintPos ps).length ∨ 1 < ps.length := by
  match ps, h with
  | [p], _ => simp [hintPos]
  | p :: p' :: r, _ => right; simp

/-- All levels: the siblings collected by `Prove` are exactly the ones the loop of `Verify` consumes. -/
theorem levels_complete (H : HashFn) {L : List Digest} {u : Tree} (hu : IsTree H L u) :
    ∀ (t pre : Tree), t = pre ++ u → ∀ (ps : List Nat), ps.Pairwise (· < ·) → ps ≠ [] → (∀ p ∈ ps, p < L.length) →
      ∃ hs a, u.getLast? = some [a] ∧
        (∀ (pl : PartialLayer) (hints : List Digest), pl.map Prod.fst = ps →
          ∃ pl', proveLoop H (u.length - 1) pre.length ⟨some t, hints⟩ pl = .ok (pl', ⟨some t, hints ++ hs⟩) ∧ pl'.length = 1) ∧
        ∀ fuel, u.length ≤ fuel → pre.length + u.length ≤ 66 → verifyLoop H fuel pre.length ⟨none, hs⟩ (trueItems L ps) = .ok [(0, a)] := by
  induction hu with
  | top a =>
    intro t pre ht ps hsort hne hps
    have hps0 : ps = [0] := by
      match ps, hne with
      | [p], _ => have := hps p (by simp); simp at this; rw [this]
      | p :: q :: r, _ =>
        have h1 := hps p (by simp); have h2 := hps q (by simp)
        have h3 := (List.pairwise_cons.1 hsort).1 q (by simp)
        simp at h1 h2; omega
    subst hps0
    refine ⟨[], a, rfl, ?_, ?_⟩
    · intro pl hints hpl
      refine ⟨pl, by simp [proveLoop], ?_⟩
      have := congrArg List.length hpl
      simpa using this
    · intro fuel hfuel _
      match fuel, hfuel with
      | f + 1, _ => simp [verifyLoop, trueItems, at']
  | up L u h1 hu ih =>
    intro t pre ht ps hsort hne hps
    obtain ⟨hs, a, ha, hprove, hver⟩ := ih t (pre ++ [L]) (by simp [ht]) (ups ps) (ups_sorted ps hsort) (ups_ne_nil ps hne) (ups_range L H ps hps)
    have hul : 0 < u.length := List.length_pos_iff.2 hu.ne_nil
    have htl : t[pre.length]? = some L := by rw [ht, List.getElem?_append_right (Nat.le_refl _)]; simp
    refine ⟨(hintPos ps).map (at' L) ++ hs, a, ?_, ?_, ?_⟩
    · obtain ⟨v, rfl⟩ := hu.head
      simpa [List.getLast?_cons_cons] using ha
    · intro pl hints hpl
      obtain ⟨pl1, h2, h3⟩ := plUp_prove H t pre.length L htl ps pl hints hpl
      obtain ⟨pl2, h4, h5⟩ := hprove pl1 (hints ++ (hintPos ps).map (at' L)) h3
      refine ⟨pl2, ?_, h5⟩
      have : (L :: u).length - 1 = (u.length - 1) + 1 := by simp; omega
      rw [this]
      unfold proveLoop
      rw [h2]
      simp only [List.length_append, List.length_cons, List.length_nil, Nat.zero_add, List.append_assoc] at h4
      simp only [bind, Except.bind, h4]
    · intro fuel hfuel hpre
      match fuel, hfuel with
      | f + 1, hfuel =>
        simp only [List.length_cons] at hfuel hpre
        unfold verifyLoop
        have hcond : ((hintPos ps).map (at' L) ++ hs).length > 0 ∨ (trueItems L ps).length > 1 := by
          have := continue_cond ps hne
          simp only [trueItems, List.length_append, List.length_map]
          omega
        rw [if_pos hcond, plUp_verify H pre.length L ps hs hps]
        have := hver f (by omega) (by simp; omega)
        simp only [List.length_append, List.length_cons, List.length_nil, Nat.zero_add] at this
        simp only [bind, Except.bind]
        rw [if_neg (by omega), this]

/-! ### The first layer -/

theorem proveItems_ok (leaves : List Digest) (prev : Option Nat) (ps : List Nat) (hs : ps.Pairwise (· ≤ ·)) (hp : ∀ p ∈ ps, p < leaves.length)
    (hprev : ∀ q, prev = some q → ∀ p ∈ ps, q ≤ p) :
    ∃ pl, proveItems leaves prev ps = .ok pl ∧ (pl.map Prod.fst).Pairwise (· < ·) ∧
      (∀ q, q ∈ pl.map Prod.fst ↔ q ∈ ps ∧ prev ≠ some q) := by
  induction ps generalizing prev with
  | nil => exact ⟨[], rfl, by simp, by simp⟩
  | cons p ps ih =>
    have hpl := hp p (by simp)
    rw [List.pairwise_cons] at hs
    have hget : leaves[p]? = some leaves[p] := List.getElem?_eq_getElem hpl
    unfold proveItems
    rw [hget]
    simp only
    by_cases hpp : prev = some p
    · rw [if_pos hpp]
      obtain ⟨pl, h1, h2, h3⟩ := ih prev hs.2 (fun q hq => hp q (List.mem_cons_of_mem _ hq)) (fun q hq x hx => hprev q hq x (List.mem_cons_of_mem _ hx))
      refine ⟨pl, h1, h2, fun q => ?_⟩
      rw [h3, hpp]
      simp only [List.mem_cons, ne_eq, Option.some.injEq]
      constructor
      · rintro ⟨h, h'⟩; exact ⟨Or.inr h, h'⟩
      · rintro ⟨rfl | h, h'⟩
        · exact absurd rfl h'
        · exact ⟨h, h'⟩
    · rw [if_neg hpp]
      obtain ⟨pl, h1, h2, h3⟩ := ih (some p) hs.2 (fun q hq => hp q (List.mem_cons_of_mem _ hq)) (fun q hq x hx => by injection hq with hq; subst hq; exact hs.1 x hx)
      refine ⟨(p, leaves[p]) :: pl, by rw [h1]; rfl, ?_, ?_⟩
      · rw [List.map_cons, List.pairwise_cons]
        refine ⟨fun q hq => ?_, h2⟩
        obtain ⟨hq1, hq2⟩ := (h3 q).1 hq
        have := hs.1 q hq1
        rcases Nat.lt_or_eq_of_le this with h | h
        · exact h
        · exact absurd (by rw [h]) hq2
      · intro q
        rw [List.map_cons, List.mem_cons, h3]
        simp only [List.mem_cons, ne_eq, Option.some.injEq]
        constructor
        · rintro (rfl | ⟨h, h'⟩)
          · exact ⟨Or.inl rfl, hpp⟩
          · refine ⟨Or.inr h, fun hq => ?_⟩
            have h4 := hprev q hq p (by simp)
            have h5 := hs.1 q h
            exact h' (by omega)
        · rintro ⟨rfl | h, h'⟩
          · exact Or.inl rfl
          · by_cases hqp : p = q
            · exact Or.inl hqp.symm
            · exact Or.inr ⟨h, hqp⟩

theorem sortNats_perm (l : List Nat) : (sortNats l).Perm l := List.mergeSort_perm _ _

theorem sortNats_sorted (l : List Nat) : (sortNats l).Pairwise (· ≤ ·) := by
  have := List.pairwise_mergeSort (le := fun a b : Nat => decide (a ≤ b))
    (fun a b c h1 h2 => by simp only [decide_eq_true_eq] at *; omega) (fun a b => by simp; omega) l
  simpa [sortNats] using this

theorem sortItems_perm (l : PartialLayer) : (sortItems l).Perm l := List.mergeSort_perm _ _

theorem sortItems_sorted (l : PartialLayer) : (sortItems l).Pairwise (fun a b => a.1 ≤ b.1) := by
  have := List.pairwise_mergeSort (le := fun a b : Nat × Digest => decide (a.1 ≤ b.1))
    (fun a b c h1 h2 => by simp only [decide_eq_true_eq] at *; omega) (fun a b => by simp; omega) l
  simpa [sortItems] using this

/-- Two strictly increasing lists with the same elements are equal. -/
theorem strict_ext {l l' : List Nat} (h : l.Pairwise (· < ·)) (h' : l'.Pairwise (· < ·)) (hm : ∀ q, q ∈ l ↔ q ∈ l') : l = l' := by
  have hn : l.Nodup := h.imp (fun h => Nat.ne_of_lt h)
  have hn' : l'.Nodup := h'.imp (fun h => Nat.ne_of_lt h)
  exact List.Perm.eq_of_pairwise (fun a b _ _ h1 h2 => absurd h1 (Nat.lt_asymm h2)) h h' ((List.perm_ext_iff_of_nodup hn hn').2 hm)

theorem build_isTree (H : HashFn) (arr : List Bytes) (h : 0 < arr.length) : IsTree H (arr.map H) (build H arr) := by
  unfold build
  rw [if_pos h]
  exact buildUp_isTree H _ _ (by simpa using h) (by simp)

/-! ### A single position -/

/-- The bytes hashed at one step up from `pos`. -/
def stepBytes (pos : Nat) (d s : Digest) : Bytes := if pos % 2 = 0 then pairBytes d s else pairBytes s d

/-- Climbing from one position with a proof. -/
def climb (H : HashFn) : Nat → Digest → List Digest → Digest
  | _, d, [] => d
  | pos, d, s :: ss => climb H (pos / 2) (H (stepBytes pos d s)) ss

/-- The byte strings hashed when climbing. -/
def climbInputs (H : HashFn) : Nat → Digest → List Digest → List Bytes
  | _, _, [] => []
  | pos, d, s :: ss => stepBytes pos d s :: climbInputs H (pos / 2) (H (stepBytes pos d s)) ss

theorem verifyLoop_single (H : HashFn) (proof : List Digest) :
    ∀ (fuel l pos : Nat) (d : Digest), fuel + l = 67 → l ≤ 65 →
      verifyLoop H fuel l ⟨none, proof⟩ [(pos, d)] =
        if proof.length + l ≤ 65 then .ok [(pos / 2 ^ proof.length, climb H pos d proof)] else
          if proof = [] then .ok [(pos, d)] else .error (.err .unknown "Verify exceeded 64 levels") := by
  induction proof with
  | nil =>
    intro fuel l pos d hf hl
    match fuel, hf with
    | f + 1, _ => simp [verifyLoop, climb]
    | 0, hf => omega
  | cons s ss ih =>
    intro fuel l pos d hf hl
    match fuel, hf with
    | 0, hf => omega
    | f + 1, hf =>
      unfold verifyLoop
      have hup : plUp H true l ⟨none, s :: ss⟩ [(pos, d)] = .ok ([(pos / 2, H (stepBytes pos d s))], ⟨none, ss⟩) := by
        simp only [plUp, Siblings.get, nextItem, stepBytes, if_true]
        simp only [bind, Except.bind]
        split <;> rfl
      rw [if_pos (by simp), hup]
      simp only [bind, Except.bind]
      by_cases hl64 : l > 64
      · rw [if_pos hl64, if_neg (by simp; omega), if_neg (by simp)]
      · rw [if_neg hl64, ih f (l + 1) _ _ (by omega) (by omega)]
        by_cases hlen : ss.length + (l + 1) ≤ 65
        · rw [if_pos hlen, if_pos (by simp; omega)]
          simp only [List.length_cons, climb]
          rw [Nat.div_div_eq_div_mul, ← Nat.pow_succ']
        · have hss : ss ≠ [] := by rintro rfl; simp at hlen; omega
          rw [if_neg hlen, if_neg hss, if_neg (by simp only [List.length_cons]; omega), if_neg (by simp)]

/-- `Verify` of a single element. -/
theorem verify_single (H : HashFn) (rt : Digest) (pos : Nat) (e : Bytes) (proof : List Digest) :
    verify H rt [(pos, e)] proof = .ok () ↔ proof.length ≤ 65 ∧ pos < 2 ^ proof.length ∧ climb H pos (H e) proof = rt := by
  unfold verify
  rw [if_neg (by simp)]
  have hs : sortItems (([(pos, e)] : GoMap Nat Bytes).map fun e => (e.1, H e.2)) = [(pos, H e)] := by
    simp [sortItems]
  rw [hs, verifyLoop_single H proof 67 0 pos (H e) rfl (by omega)]
  by_cases h : proof.length + 0 ≤ 65
  · rw [if_pos h]
    simp only [bind, Except.bind, goIndex, List.getElem?_cons_zero]
    have hpos : pos / 2 ^ proof.length = 0 ↔ pos < 2 ^ proof.length := by
      rw [Nat.div_eq_zero_iff]
      have : 0 < 2 ^ proof.length := Nat.pos_of_ne_zero (by simp)
      omega
    split
    · next hc =>
      simp only [reduceCtorEq, false_iff]
      rintro ⟨_, h1, h2⟩
      rcases hc with hc | hc
      · exact hc (hpos.2 h1)
      · exact hc h2
    · next hc =>
      simp only [true_iff]
      simp only [ne_eq, not_or, not_not] at hc
      exact ⟨by omega, hpos.1 hc.1, hc.2⟩
  · rw [if_neg h, if_neg (by rintro rfl; simp at h)]
    simp only [bind, Except.bind, reduceCtorEq, false_iff]
    rintro ⟨h1, _⟩; omega

end Resmix.Merkle
