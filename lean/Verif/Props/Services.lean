import Verif.Model.Services
import Verif.Proofs.GoMap
set_option autoImplicit false
/-
C59: names of methods.
-/
namespace Resmix.Rrpc
variable {ζ μ η : Type}

theorem lastSlashFrom_none (s : Str) (k : Nat) (h : lastSlashFrom s k = none) : ∀ i : Nat, i < k → s[i]? ≠ some 47 := by
  induction k with
  | zero => intro i hi; omega
  | succ k ih =>
    rw [lastSlashFrom] at h
    split at h
    · cases h
    · next hk =>
      intro i hi
      by_cases hik : i = k
      · rw [hik]; exact hk
      · exact ih h i (by omega)

theorem lastSlashFrom_some (s : Str) (k p : Nat) (h : lastSlashFrom s k = some p) : p < k ∧ s[p]? = some 47 ∧ ∀ i : Nat, p < i → i < k → s[i]? ≠ some 47 := by
  induction k with
  | zero => cases h
  | succ k ih =>
    rw [lastSlashFrom] at h
    split at h
    · next hk => injection h with h; subst h; exact ⟨by omega, hk, fun i h1 h2 => by omega⟩
    · next hk =>
      obtain ⟨h1, h2, h3⟩ := ih h
      refine ⟨by omega, h2, fun i h4 h5 => ?_⟩
      by_cases hik : i = k
      · rw [hik]; exact hk
      · exact h3 i h4 (by omega)

/-- The name splits at its last slash. -/
theorem lastSlash_split (a b : Str) (hb : (47 : UInt8) ∉ b) : lastSlash (a ++ 47 :: b) = some a.length := by
  cases h : lastSlash (a ++ 47 :: b) with
  | none =>
    refine absurd ?_ (lastSlashFrom_none _ _ h a.length (by simp))
    simp
  | some p =>
    obtain ⟨h1, h2, h3⟩ := lastSlashFrom_some _ _ _ h
    rcases Nat.lt_trichotomy p a.length with hlt | heq | hgt
    · refine absurd ?_ (h3 a.length hlt (by simp))
      simp
    · rw [heq]
    · obtain ⟨d, rfl⟩ : ∃ d, p = a.length + 1 + d := ⟨p - a.length - 1, by omega⟩
      rw [List.getElem?_append_right (by omega)] at h2
      rw [show a.length + 1 + d - a.length = d + 1 by omega, List.getElem?_cons_succ] at h2
      exact absurd (List.mem_of_getElem? h2) hb

theorem lastSlash_none_iff (s : Str) : lastSlash s = none ↔ (47 : UInt8) ∉ s := by
  constructor
  · intro h hm
    obtain ⟨i, hi⟩ := List.mem_iff_getElem?.1 hm
    exact lastSlashFrom_none _ _ h i (List.getElem?_eq_some_iff.1 hi).1 hi
  · intro h
    cases hl : lastSlash s with
    | none => rfl
    | some p => exact absurd (List.mem_of_getElem? (lastSlashFrom_some _ _ _ hl).2.1) h

theorem split_of_mem (s : Str) (h : (47 : UInt8) ∈ s) : ∃ a b, s = a ++ 47 :: b ∧ (47 : UInt8) ∉ b := by
  induction s with
  | nil => cases h
  | cons c s ih =>
    by_cases hs : (47 : UInt8) ∈ s
    · obtain ⟨a, b, rfl, hb⟩ := ih hs
      exact ⟨c :: a, b, rfl, hb⟩
    · rcases List.mem_cons.1 h with rfl | h
      · exact ⟨[], s, rfl, hs⟩
      · exact absurd h hs

/-- The entry of a table for a service and a method. -/
def Registered (s : Services ζ μ) (service method : Str) (server : ζ) (handler : μ) : Prop :=
  ∃ d, GoMap.lookup s service = some d ∧ d.server = server ∧ GoMap.lookup d.methods method = some handler

/-- The ways to write the method `method` of service `service`: "/service/method", or "service/method" for a service name that is not
empty and does not begin with a slash. -/
inductive NameOf (service method : Str) : Str → Prop
  | full : NameOf service method (47 :: (service ++ 47 :: method))
  | short : service ≠ [] → service.head? ≠ some 47 → NameOf service method (service ++ 47 :: method)

theorem extract_full (service method : Str) (hm : (47 : UInt8) ∉ method) : extractMethodInfo (47 :: (service ++ 47 :: method)) = .ok (service, method) := by
  simp [extractMethodInfo, lastSlash_split service method hm]

theorem extract_name (service method name : Str) (hm : (47 : UInt8) ∉ method) (h : NameOf service method name) : extractMethodInfo name = .ok (service, method) := by
  cases h with
  | full => exact extract_full service method hm
  | short h1 h2 =>
    cases service with
    | nil => exact absurd rfl h1
    | cons c t =>
      have hc : c ≠ 47 := by intro h; rw [h] at h2; exact h2 rfl
      have := lastSlash_split (c :: t) method hm
      rw [List.cons_append] at this
      simp [extractMethodInfo, hc, this]

/-- Every name is of exactly one kind. -/
theorem name_cases (name : Str) : (∃ service method, (47 : UInt8) ∉ method ∧ NameOf service method name) ∨ ∃ c, extractMethodInfo name = .error (.err .invalidArgument c) := by
  cases name with
  | nil => exact .inr ⟨_, rfl⟩
  | cons c rest =>
    by_cases hc : c = 47
    · subst hc
      by_cases hr : (47 : UInt8) ∈ rest
      · obtain ⟨a, b, rfl, hb⟩ := split_of_mem rest hr
        exact .inl ⟨a, b, hb, .full⟩
      · exact .inr ⟨_, by simp [extractMethodInfo, (lastSlash_none_iff rest).2 hr]; rfl⟩
    · by_cases hr : (47 : UInt8) ∈ c :: rest
      · obtain ⟨a, b, hab, hb⟩ := split_of_mem (c :: rest) hr
        rw [hab]
        refine .inl ⟨a, b, hb, .short ?_ ?_⟩
        · rintro rfl
          injection hab with h1 h2
          exact hc h1
        · cases a with
          | nil => simp
          | cons a0 a =>
            injection hab with h1 h2
            simpa using fun h => hc (h1.trans h)
      · exact .inr ⟨_, by simp [extractMethodInfo, hc, (lastSlash_none_iff (c :: rest)).2 hr]; rfl⟩

/-- C59. A name resolves to a server object and a handler exactly if it is a way to write a service and a method registered with them (a
method name has no slash); every other name is refused with the code InvalidArgument. -/
theorem C59_resolve (s : Services ζ μ) (name : Str) :
    (∀ server handler, s.get name = .ok (server, handler) ↔
      ∃ service method, (47 : UInt8) ∉ method ∧ NameOf service method name ∧ Registered s service method server handler) ∧
    ∀ e, s.get name = .error e → ∃ text, e = .err .invalidArgument text := by
  have hget : ∀ service method, (47 : UInt8) ∉ method → NameOf service method name → s.get name = match GoMap.lookup s service with
    | none => .error (.err .invalidArgument "service does not exist")
    | some d => match d.methods.lookup method with
      | none => .error (.err .invalidArgument "method does not exist")
      | some m => .ok (d.server, m) := by
    intro service method h1 h2
    rw [Services.get, extract_name service method name h1 h2]
    simp only
    cases GoMap.lookup s service with
    | none => rfl
    | some d =>
      simp only
      cases d.methods.lookup method <;> rfl
  constructor
  · intro server handler
    constructor
    · intro h
      rcases name_cases name with ⟨service, method, h1, h2⟩ | ⟨c, hc⟩
      · refine ⟨service, method, h1, h2, ?_⟩
        rw [hget service method h1 h2] at h
        cases hl : GoMap.lookup s service with
        | none => rw [hl] at h; cases h
        | some d =>
          rw [hl] at h
          simp only at h
          cases hm : d.methods.lookup method with
          | none => rw [hm] at h; cases h
          | some m =>
            rw [hm] at h
            simp only [Except.ok.injEq, Prod.mk.injEq] at h
            exact ⟨d, hl, h.1, by rw [hm, h.2]⟩
      · rw [Services.get, hc] at h; cases h
    · rintro ⟨service, method, h1, h2, d, hd, rfl, hm⟩
      rw [hget service method h1 h2, hd]
      simp only [hm]
  · intro e h
    rcases name_cases name with ⟨service, method, h1, h2⟩ | ⟨c, hc⟩
    · rw [hget service method h1 h2] at h
      cases hl : GoMap.lookup s service with
      | none => rw [hl] at h; injection h with h; exact ⟨_, h.symm⟩
      | some d =>
        rw [hl] at h
        simp only at h
        cases hm : d.methods.lookup method with
        | none => rw [hm] at h; injection h with h; exact ⟨_, h.symm⟩
        | some m => rw [hm] at h; cases h
    · rw [Services.get, hc] at h; injection h with h; exact ⟨_, h.symm⟩

/-- C59: a name is a way to write at most one service and method. -/
theorem C59_unambiguous (name s1 m1 s2 m2 : Str) (h1 : (47 : UInt8) ∉ m1) (h2 : (47 : UInt8) ∉ m2) (n1 : NameOf s1 m1 name) (n2 : NameOf s2 m2 name) :
    s1 = s2 ∧ m1 = m2 := by
  have := (extract_name s1 m1 name h1 n1).symm.trans (extract_name s2 m2 name h2 n2)
  simpa using this

theorem lookup_foldl_insert {κ ν : Type} [DecidableEq κ] (l : List (κ × ν)) (m : GoMap κ ν) (k : κ) :
    GoMap.lookup (l.foldl (fun m e => GoMap.insert m e.1 e.2) m) k = ((l.reverse.find? fun e => decide (e.1 = k)).map Prod.snd).or (GoMap.lookup m k) := by
  induction l generalizing m with
  | nil => simp
  | cons e l ih =>
    rw [List.foldl_cons, ih, List.reverse_cons, List.find?_append]
    cases hf : l.reverse.find? (fun e => decide (e.1 = k)) with
    | some x => simp
    | none =>
      by_cases hk : e.1 = k
      · simp only [List.find?_cons, hk, decide_true, Option.none_or, Option.map_some, Option.some_or, Option.map_none]
        rw [GoMap.lookup_insert_self]
      · simp only [List.find?_cons, hk, decide_false, Option.none_or, List.find?_nil, Option.map_none]
        rw [GoMap.lookup_insert_ne _ _ (Ne.symm hk)]

/-- C59, the table made from a gRPC description with pairwise distinct method names: it has exactly the methods of the description, under
the description's service name, each with its own handler and the given server object. -/
theorem C59_same_methods (wrap : η → μ) (serviceName : Str) (methods : List (Str × η)) (hnd : (methods.map Prod.fst).Nodup) (server : ζ)
    (service method : Str) (srv : ζ) (handler : μ) :
    Registered (singleService wrap serviceName methods server) service method srv handler ↔
      service = serviceName ∧ srv = server ∧ ∃ h, (method, h) ∈ methods ∧ handler = wrap h := by
  have hfold : ∀ (l : List (Str × η)) (m : GoMap Str μ),
      l.foldl (fun m e => GoMap.insert m e.1 (wrap e.2)) m = (l.map fun e => (e.1, wrap e.2)).foldl (fun m e => GoMap.insert m e.1 e.2) m := by
    intro l
    induction l with
    | nil => intro m; rfl
    | cons e l ih => intro m; simp only [List.foldl_cons, List.map_cons]; exact ih _
  have hlook : ∀ h : μ, GoMap.lookup (methods.foldl (fun m e => GoMap.insert m e.1 (wrap e.2)) []) method = some h ↔ ∃ g, (method, g) ∈ methods ∧ h = wrap g := by
    intro h
    rw [hfold, lookup_foldl_insert]
    simp only [GoMap.lookup, Option.or_none, Option.map_eq_some_iff]
    constructor
    · rintro ⟨e, he, rfl⟩
      have h1 := List.mem_of_find?_eq_some he
      have h2 := List.find?_some he
      rw [List.mem_reverse, List.mem_map] at h1
      obtain ⟨⟨n, g⟩, hg, rfl⟩ := h1
      simp only [decide_eq_true_eq] at h2
      subst h2
      exact ⟨g, hg, rfl⟩
    · rintro ⟨g, hg, rfl⟩
      cases hf : ((methods.map fun e => (e.1, wrap e.2)).reverse).find? (fun e => decide (e.1 = method)) with
      | none =>
        rw [List.find?_eq_none] at hf
        exact absurd (decide_eq_true (rfl : method = method)) (hf (method, wrap g) (List.mem_reverse.2 (List.mem_map.2 ⟨(method, g), hg, rfl⟩)))
      | some e =>
        have h1 := List.mem_of_find?_eq_some hf
        have h2 := List.find?_some hf
        rw [List.mem_reverse, List.mem_map] at h1
        obtain ⟨⟨n, g'⟩, hg', rfl⟩ := h1
        simp only [decide_eq_true_eq] at h2
        subst h2
        refine ⟨_, rfl, ?_⟩
        have := List.inj_on_of_nodup_map hnd hg hg' rfl
        rw [Prod.mk.injEq] at this
        simp only [this.2]
  unfold Registered singleService
  simp only [GoMap.insert, GoMap.erase, GoMap.lookup]
  constructor
  · rintro ⟨d, hd, rfl, hm⟩
    split at hd
    · next hs =>
      injection hd with hd; subst hd
      exact ⟨hs.symm, rfl, (hlook handler).1 hm⟩
    · cases hd
  · rintro ⟨rfl, rfl, h⟩
    exact ⟨_, if_pos rfl, rfl, (hlook handler).2 h⟩

/-- "/a/b" and "a/b" name the method "b" of the service "a"; "//b" names the method "b" of the service with the empty name. -/
example : NameOf [97] [98] [47, 97, 47, 98] ∧ NameOf [97] [98] [97, 47, 98] ∧ NameOf [] [98] [47, 47, 98] :=
  ⟨.full, .short (by simp) (by decide), .full⟩

/-- With two methods. -/
example : Registered (singleService id [97] [([98], 5), ([99], 6)] ()) [97] [99] () 6 :=
  (C59_same_methods id [97] [([98], 5), ([99], 6)] (by decide) () _ _ _ _).2 ⟨rfl, rfl, 6, by simp, rfl⟩

end Resmix.Rrpc
