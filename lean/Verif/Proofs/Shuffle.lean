import Verif.Model.Shuffle
import Mathlib.Data.List.Nodup
import Mathlib.Data.List.Range
namespace Resmix.Shuffle

theorem goIndex_ok {α} {a : List α} {i : Nat} (h : i < a.length) : goIndex a i = .ok a[i] := by
  simp [goIndex, h]

theorem swapAt_ok {arr : List Nat} {i j : Nat} (hi : i < arr.length) (hj : j < arr.length) :
    swapAt arr i j = .ok ((arr.set i arr[j]).set j arr[i]) := by
  simp [swapAt, goIndex_ok hi, goIndex_ok hj, goSet, hi, hj, bind, Except.bind]

theorem randInt_lt {rd : Reader} {s : rd.σ} {m : Nat} (hm : 0 < m) :
    ∃ j s', randInt rd s m = .ok (j, s') ∧ j < m := by
  refine ⟨_, _, by simp only [randInt, if_neg (Nat.pos_iff_ne_zero.mp hm)]; rfl, Nat.mod_lt _ hm⟩

theorem permLoop_perm (rd : Reader) (k : Nat) (s : rd.σ) (arr : List Nat) (h : k ≤ arr.length) :
    ∃ p s', permLoop rd k s arr = .ok (p, s') ∧ p.Perm arr := by
  induction k generalizing s arr with
  | zero => exact ⟨arr, s, rfl, .refl _⟩
  | succ k ih =>
    obtain ⟨j, s', hr, hj⟩ := randInt_lt (rd := rd) (s := s) (Nat.succ_pos k)
    have hk : k < arr.length := h
    have hj' : j < arr.length := by omega
    obtain ⟨p, s'', hp, hperm⟩ := ih s' ((arr.set k arr[j]).set j arr[k]) (by simp; omega)
    refine ⟨p, s'', ?_, hperm.trans (List.set_set_perm hk hj')⟩
    simp only [permLoop, hr, bind, Except.bind, swapAt_ok hk hj', hp]

theorem permutation_perm (rd : Reader) (s : rd.σ) (n : Nat) :
    ∃ p s', permutation rd s n = .ok (p, s') ∧ p.Perm (List.range n) :=
  permLoop_perm rd n s (List.range n) (by simp)

theorem mapM_ok {α β} (f : α → Go β) (g : α → β) (l : List α) (h : ∀ x ∈ l, f x = .ok (g x)) :
    l.mapM f = .ok (l.map g) := by
  induction l with
  | nil => rfl
  | cons a l ih =>
    simp only [List.mapM_cons, h a (by simp), ih (fun x hx => h x (List.mem_cons_of_mem _ hx))]
    rfl

theorem applyPerm_eq {α} (p : List Nat) (orig : List α) (hp : p.Perm (List.range orig.length)) :
    ∃ out, applyPerm p orig = .ok out ∧ out.length = orig.length ∧ p.map (fun i => orig[i]?) = out.map some := by
  have hlen : p.length = orig.length := by simpa using hp.length_eq
  have hmem : ∀ i ∈ p, i < orig.length := fun i hi => by simpa using hp.mem_iff.1 hi
  have hall : ∀ i, (h : i < p.length) → p[i] < orig.length := fun i h => hmem _ (List.getElem_mem h)
  cases orig with
  | nil =>
    have : p = [] := by simpa using hlen
    subst this; exact ⟨[], rfl, rfl, rfl⟩
  | cons d t =>
    let orig := d :: t
    refine ⟨(List.range orig.length).map fun i => orig.getD (p.getD i 0) d, ?_, by simp [orig], ?_⟩
    · apply mapM_ok
      intro i hi
      have hi : i < p.length := by rw [hlen]; simpa using hi
      have h2 := hall i hi
      simp only [goIndex_ok hi, bind, Except.bind, goIndex_ok h2]
      simp [orig, hi]
      rw [List.getElem?_eq_getElem h2]; rfl
    · apply List.ext_getElem
      · simp [hlen, orig]
      · intro i h1 h2
        have hi : i < p.length := by simpa using h1
        have h3 := hall i hi
        simp [orig, hi]
        rw [List.getElem?_eq_getElem h3]; simp

theorem map_get_range {α} (l : List α) : (List.range l.length).map (fun i => l[i]?) = l.map some := by
  apply List.ext_getElem
  · simp
  · intro i h1 h2; simp at h1; simp [h1]

theorem applyPerm_perm {α} (p : List Nat) (orig : List α) (hp : p.Perm (List.range orig.length)) :
    ∃ out, applyPerm p orig = .ok out ∧ out.Perm orig := by
  obtain ⟨out, h1, _, h3⟩ := applyPerm_eq p orig hp
  refine ⟨out, h1, ?_⟩
  have : (out.map some).Perm (orig.map some) := by
    rw [← h3, ← map_get_range orig]; exact hp.map _
  have := this.filterMap (f := id)
  simpa using this

/-- Invariant of a shuffler: the stored permutation, if any, is one of its own length. -/
def Inv {rd : Reader} (shf : Shuffler rd) : Prop :=
  ∀ p, shf.perm = some p → p.Perm (List.range p.length)

theorem inv_new (rd : Reader) (s : rd.σ) : Inv (newShuffler rd s) := by
  intro p h; simp [newShuffler] at h

/-- One call: the permutation used afterwards, with everything known about it. -/
theorem shuffleOnions_spec {α} {rd : Reader} (shf : Shuffler rd) (hI : Inv shf) (inp : List α) :
    ∃ out p shf', shuffleOnions shf inp = .ok (out, shf') ∧ shf'.perm = some p ∧
      p.Perm (List.range inp.length) ∧ p.map (fun i => inp[i]?) = out.map some ∧ out.Perm inp ∧
      (∀ q, shf.perm = some q → q.length = inp.length → shf' = shf) := by
  by_cases hn : needsPerm shf inp.length = true
  · obtain ⟨p, s', hp, hperm⟩ := permutation_perm rd shf.rand inp.length
    obtain ⟨out, ho, _, hm⟩ := applyPerm_eq p inp hperm
    obtain ⟨out', ho', hop⟩ := applyPerm_perm p inp hperm
    rw [ho] at ho'; cases ho'
    refine ⟨out, p, ⟨some p, s'⟩, ?_, rfl, hperm, hm, hop, ?_⟩
    · simp [shuffleOnions, hn, hp, ho, bind, Except.bind]
    · intro q hq hl; simp [needsPerm, hq, hl] at hn
  · cases hp : shf.perm with
    | none => simp [needsPerm, hp] at hn
    | some p =>
      have hl : p.length = inp.length := by simpa [needsPerm, hp] using hn
      have hperm : p.Perm (List.range inp.length) := hl ▸ hI p hp
      obtain ⟨out, ho, _, hm⟩ := applyPerm_eq p inp hperm
      obtain ⟨out', ho', hop⟩ := applyPerm_perm p inp hperm
      rw [ho] at ho'; cases ho'
      refine ⟨out, p, shf, ?_, hp, hperm, hm, hop, fun _ _ _ => rfl⟩
      simp [shuffleOnions, needsPerm, hp, hl, ho, bind, Except.bind]

theorem inv_step {α} {rd : Reader} (shf shf' : Shuffler rd) (inp out : List α) (hI : Inv shf)
    (h : shuffleOnions shf inp = .ok (out, shf')) : Inv shf' := by
  obtain ⟨out', p, shf'', h', hp, hperm, _⟩ := shuffleOnions_spec shf hI inp
  rw [h] at h'; cases h'
  intro q hq; rw [hp] at hq; cases hq
  have : p.length = inp.length := by simpa using hperm.length_eq
  rw [this]; exact hperm

theorem shuffleAll_spec {α} {rd : Reader} (shf : Shuffler rd) (hI : Inv shf) (ins : List (List α)) :
    ∃ outs shf', shuffleAll shf ins = .ok (outs, shf') ∧ Inv shf' ∧ List.Forall₂ List.Perm outs ins := by
  induction ins generalizing shf with
  | nil => exact ⟨[], shf, rfl, hI, .nil⟩
  | cons x xs ih =>
    obtain ⟨out, p, shf1, h, _, _, _, hop, _⟩ := shuffleOnions_spec shf hI x
    obtain ⟨outs, shf2, h2, hI2, hf⟩ := ih shf1 (inv_step shf shf1 x out hI h)
    refine ⟨out :: outs, shf2, ?_, hI2, .cons hop hf⟩
    simp [shuffleAll, h, h2, bind, Except.bind]

/-! ### Fisher–Yates as a bijection -/

/-- The loop on already reduced draws. -/
def pureLoop : Nat → List Nat → List Nat → List Nat
  | k + 1, j :: js, arr => pureLoop k js ((arr.set k (arr.getD j 0)).set j (arr.getD k 0))
  | _, _, arr => arr

def ValidDraws (k : Nat) (js : List Nat) : Prop := js.length = k ∧ ∀ i, (h : i < js.length) → js[i] < k - i

theorem validDraws_cons {k j : Nat} {js : List Nat} :
    ValidDraws (k + 1) (j :: js) ↔ j < k + 1 ∧ ValidDraws k js := by
  constructor
  · rintro ⟨h1, h2⟩
    refine ⟨by have h := h2 0 (by simp); exact h, by simpa using h1, ?_⟩
    intro i hi
    have := h2 (i + 1) (by simpa using hi)
    simpa using this
  · rintro ⟨h0, h1, h2⟩
    refine ⟨by simpa using h1, ?_⟩
    intro i hi
    cases i with
    | zero => simpa using h0
    | succ i => simpa using h2 i (by simpa using hi)

theorem drop_swap {arr : List Nat} {k j : Nat} (hj : j ≤ k) (a b : Nat) :
    ((arr.set k a).set j b).drop (k + 1) = arr.drop (k + 1) := by
  rw [List.drop_set_of_lt (by omega), List.drop_set_of_lt (by omega)]

theorem pureLoop_drop (k : Nat) (js arr : List Nat) (hv : ValidDraws k js) :
    (pureLoop k js arr).drop k = arr.drop k := by
  induction k generalizing js arr with
  | zero => cases js <;> rfl
  | succ k ih =>
    cases js with
    | nil => simp [ValidDraws] at hv
    | cons j js =>
      rw [validDraws_cons] at hv
      simp only [pureLoop]
      have := ih js ((arr.set k (arr.getD j 0)).set j (arr.getD k 0)) hv.2
      have h2 := congrArg (List.drop 1) this
      rw [List.drop_drop, List.drop_drop] at h2
      rw [show k + 1 = k + 1 from rfl, h2, drop_swap (by omega)]

theorem swap_getD_k {arr : List Nat} {k j : Nat} (hk : k < arr.length) (hj : j ≤ k) :
    ((arr.set k (arr.getD j 0)).set j (arr.getD k 0))[k]? = some (arr.getD j 0) := by
  rcases Nat.lt_or_ge j k with h | h
  · simp [hk, Nat.ne_of_lt h]
  · have : j = k := by omega
    subst this
    simp [hk]

theorem pureLoop_get (k : Nat) (j : Nat) (js arr : List Nat) (hv : ValidDraws (k + 1) (j :: js)) (hk : k < arr.length) :
    (pureLoop (k + 1) (j :: js) arr)[k]? = some (arr.getD j 0) := by
  rw [validDraws_cons] at hv
  simp only [pureLoop]
  have := pureLoop_drop k js ((arr.set k (arr.getD j 0)).set j (arr.getD k 0)) hv.2
  have h2 := congrArg (·[0]?) this
  simp only [List.getElem?_drop, Nat.add_zero] at h2
  rw [h2, swap_getD_k hk (by omega)]

theorem pureLoop_bij (k : Nat) (arr q : List Nat) (hk : k ≤ arr.length) (hnd : arr.Nodup) (hq : q.Perm arr)
    (hd : q.drop k = arr.drop k) : ∃ js, (ValidDraws k js ∧ pureLoop k js arr = q) ∧
      ∀ js', ValidDraws k js' → pureLoop k js' arr = q → js' = js := by
  induction k generalizing arr q with
  | zero =>
    refine ⟨[], ⟨⟨rfl, by simp⟩, ?_⟩, ?_⟩
    · simpa [pureLoop] using hd.symm
    · intro js' hv _; exact List.length_eq_zero_iff.1 hv.1
  | succ k ih =>
    have hlen : q.length = arr.length := hq.length_eq
    have hkq : k < q.length := by omega
    have hka : k < arr.length := hk
    -- q[k] lies among the first k+1 elements of arr
    have htake : (q.take (k+1)).Perm (arr.take (k+1)) := by
      have h1 : (q.take (k+1) ++ arr.drop (k+1)).Perm (arr.take (k+1) ++ arr.drop (k+1)) := by
        rw [← hd, List.take_append_drop, hd, List.take_append_drop]; exact hq
      exact (List.perm_append_right_iff _).1 h1
    have hmem : q[k] ∈ arr.take (k+1) := by
      rw [← htake.mem_iff]
      exact List.mem_take_iff_getElem.2 ⟨k, by omega, rfl⟩
    obtain ⟨j, hj, hjk⟩ := List.mem_take_iff_getElem.1 hmem
    have hjl : j < arr.length := by omega
    have hgj : arr.getD j 0 = arr[j] := by simp [hjl]
    have hgk : arr.getD k 0 = arr[k] := by simp [hka]
    let arr' := (arr.set k (arr.getD j 0)).set j (arr.getD k 0)
    have hperm' : arr'.Perm arr := by
      simp only [arr', hgj, hgk]; exact List.set_set_perm hka hjl
    have hget' : arr'[k]? = some q[k] := by
      rw [swap_getD_k hka (by omega), hgj, hjk]
    have hdrop' : q.drop k = arr'.drop k := by
      have hk' : k < arr'.length := by rw [hperm'.length_eq]; exact hka
      rw [List.drop_eq_getElem_cons hkq, List.drop_eq_getElem_cons hk', hd]
      congr 1
      · rw [List.getElem?_eq_getElem hk'] at hget'; exact (Option.some.inj hget').symm
      · simp only [arr']; rw [drop_swap (by omega)]
    obtain ⟨js, ⟨hv, hl⟩, huniq⟩ := ih arr' q (by rw [hperm'.length_eq]; omega) (hperm'.nodup_iff.2 hnd)
      (hq.trans hperm'.symm) hdrop'
    refine ⟨j :: js, ⟨validDraws_cons.2 ⟨by omega, hv⟩, hl⟩, ?_⟩
    intro js' hv' hl'
    cases js' with
    | nil => simp [ValidDraws] at hv'
    | cons j' js' =>
      have hg := pureLoop_get k j' js' arr hv' hka
      rw [hl', List.getElem?_eq_getElem hkq] at hg
      rw [validDraws_cons] at hv'
      have hj'l : j' < arr.length := by omega
      have : j' = j := by
        have h1 : arr[j'] = arr[j] := by
          rw [hjk]; have := Option.some.inj hg; simp [hj'l] at this; exact this.symm
        exact (List.Nodup.getElem_inj_iff hnd).1 h1
      subst this
      simp only [pureLoop] at hl'
      rw [huniq js' hv'.2 hl']

theorem readWord_scripted (w : Bytes) (ws : List Bytes) (hw : w.length = 4) :
    readWord scripted (w :: ws) = (w, ws) := by
  simp [readWord, scripted, ← hw]

theorem permLoop_scripted (k : Nat) (ws : List Bytes) (arr : List Nat) (hws : ws.length = k)
    (h4 : ∀ w ∈ ws, w.length = 4) (hk : k ≤ arr.length) (js : List Nat) (hjl : js.length = k)
    (hj : ∀ i, (h : i < k) → js[i]'(by omega) = beNat (ws[i]'(by omega)) % (k - i)) :
    permLoop scripted k ws arr = .ok (pureLoop k js arr, []) := by
  induction k generalizing ws arr js with
  | zero =>
    have : ws = [] := List.length_eq_zero_iff.1 hws
    subst this; cases js <;> rfl
  | succ k ih =>
    cases ws with
    | nil => simp at hws
    | cons w ws =>
      cases js with
      | nil => simp at hjl
      | cons j js =>
        have h0 : j = beNat w % (k + 1) := by simpa using hj 0 (by omega)
        have hjlt : j < k + 1 := h0 ▸ Nat.mod_lt _ (by omega)
        have hka : k < arr.length := hk
        have hja : j < arr.length := by omega
        have hr : randInt scripted (w :: ws) (k + 1) = .ok (j, ws) := by
          simp [randInt, readWord_scripted w ws (h4 w (by simp)), h0]
        have := ih ws ((arr.set k (arr.getD j 0)).set j (arr.getD k 0)) (by simpa using hws)
          (fun x hx => h4 x (List.mem_cons_of_mem _ hx)) (by simp; omega) js (by simpa using hjl) (by
            intro i hi
            have := hj (i+1) (by omega)
            simpa using this)
        simp only [permLoop, hr, bind, Except.bind, swapAt_ok hka hja, pureLoop]
        have e1 : arr.getD j 0 = arr[j] := by simp [hja]
        have e2 : arr.getD k 0 = arr[k] := by simp [hka]
        rw [e1, e2] at this ⊢
        exact this

theorem beNat_be32 (n : Nat) (h : n < 2^32) : beNat (be32 n) = n := by
  simp [beNat, be32]; omega

/-! ### Residues -/

theorem count_mod (N m j : Nat) (hm : 0 < m) (hj : j < m) :
    ((List.range N).filter (fun w => w % m = j)).length = N / m + if j < N % m then 1 else 0 := by
  induction N with
  | zero => simp
  | succ N ih =>
    rw [List.range_succ, List.filter_append, List.length_append, ih]
    have hd := Nat.div_add_mod N m
    have hd' := Nat.div_add_mod (N+1) m
    have h1 := Nat.mod_lt N hm
    have h2 := Nat.mod_lt (N+1) hm
    rcases Nat.lt_or_ge (N % m + 1) m with hlt | hge
    · have hdiv : (N+1)/m = N/m := by
        apply (Nat.div_eq_iff hm).2 ; constructor
        · calc N / m * m = m * (N/m) := Nat.mul_comm _ _
            _ ≤ N + 1 := by omega
        · rw [Nat.mul_comm]; omega
      have hmod : (N+1) % m = N % m + 1 := by
        have : m * ((N+1)/m) = m * (N/m) := by rw [hdiv]
        omega
      rw [hdiv, hmod]
      by_cases e : N % m = j
      · simp [e]
      · have : (j < N % m + 1) ↔ (j < N % m) := by omega
        simp [e, this]
    · have hdiv : (N+1)/m = N/m + 1 := by
        apply (Nat.div_eq_iff hm).2 ; constructor
        · calc (N / m + 1) * m = m * (N/m) + m := by rw [Nat.add_mul, Nat.mul_comm]; omega
            _ ≤ N + 1 := by omega
        · rw [Nat.add_mul, Nat.mul_comm (N/m)]; omega
      have hmod : (N+1) % m = 0 := by
        have : m * ((N+1)/m) = m * (N/m) + m := by rw [hdiv, Nat.mul_add]; omega
        omega
      rw [hdiv, hmod]
      by_cases e : N % m = j
      · simp [e]
      · have : j < N % m := by omega
        simp [e, this]

theorem count_be32 (N m j : Nat) (hN : N ≤ 2^32) (hm : 0 < m) (hj : j < m) :
    ((List.range N).filter (fun w => beNat (be32 w) % m = j)).length = N / m + if j < N % m then 1 else 0 := by
  rw [← count_mod N m j hm hj]
  congr 1
  apply List.filter_congr
  intro w hw
  have : w < N := by simpa using hw
  rw [beNat_be32 w (by omega)]

end Resmix.Shuffle
