import Verif.Spec.Race
import Mathlib.Tactic.Common
set_option autoImplicit false
namespace Resmix.Race
variable {G L S : Type} {tr : List (Event G L S)} {e : Event G L S} {i : Nat}

/-- Whatever `g` does next, it happens after position `i`. -/
def Known (tr : List (Event G L S)) (g : G) (i : Nat) : Prop := ∃ j b, tr[j]? = some b ∧ b.g = g ∧ (i = j ∨ HB tr i j)

/-- Whoever acquires `s` next does so after position `i`. -/
def Rel (tr : List (Event G L S)) (s : S) (i : Nat) : Prop := ∃ j b, tr[j]? = some b ∧ b.op = .release s ∧ (i = j ∨ HB tr i j)

theorem get_mono {a : Event G L S} (h : tr[i]? = some a) (l : List (Event G L S)) : (tr ++ l)[i]? = some a := by
  rw [List.getElem?_append_left ((List.getElem?_eq_some_iff.1 h).1)]; exact h

theorem HB.mono {j : Nat} (h : HB tr i j) (l : List (Event G L S)) : HB (tr ++ l) i j := by
  induction h with
  | program h hi hj hg => exact .program h (get_mono hi l) (get_mono hj l) hg
  | sync h hi hj ha hb => exact .sync h (get_mono hi l) (get_mono hj l) ha hb
  | trans _ _ h1 h2 => exact .trans h1 h2

theorem Known.mono {g : G} (h : Known tr g i) (l : List (Event G L S)) : Known (tr ++ l) g i := by
  obtain ⟨j, b, hj, hg, h⟩ := h
  exact ⟨j, b, get_mono hj l, hg, h.imp id (fun h => h.mono l)⟩

theorem Rel.mono {s : S} (h : Rel tr s i) (l : List (Event G L S)) : Rel (tr ++ l) s i := by
  obtain ⟨j, b, hj, hg, h⟩ := h
  exact ⟨j, b, get_mono hj l, hg, h.imp id (fun h => h.mono l)⟩

theorem get_last (tr : List (Event G L S)) (e : Event G L S) : (tr ++ [e])[tr.length]? = some e := by simp

theorem Known.self (tr : List (Event G L S)) (e : Event G L S) : Known (tr ++ [e]) e.g tr.length := ⟨_, e, get_last tr e, rfl, .inl rfl⟩

theorem Known.hb {g : G} (h : Known tr g i) (he : e.g = g) : HB (tr ++ [e]) i tr.length := by
  obtain ⟨j, b, hj, hg, h⟩ := h
  have hjl := (List.getElem?_eq_some_iff.1 hj).1
  have h1 : HB (tr ++ [e]) j tr.length := .program hjl (get_mono hj _) (get_last tr e) (by rw [hg, he])
  rcases h with rfl | h
  · exact h1
  · exact .trans (h.mono _) h1

theorem Known.release {g : G} {s : S} (h : Known tr g i) (he : e = ⟨g, .release s⟩) : Rel (tr ++ [e]) s i :=
  ⟨_, e, get_last tr e, by rw [he], .inr (h.hb (by rw [he]))⟩

theorem Rel.acquire {g : G} {s : S} (h : Rel tr s i) (he : e = ⟨g, .acquire s⟩) : Known (tr ++ [e]) g i := by
  obtain ⟨j, b, hj, hb, h⟩ := h
  have hjl := (List.getElem?_eq_some_iff.1 hj).1
  have h1 : HB (tr ++ [e]) j tr.length := .sync hjl (get_mono hj _) (get_last tr e) hb (by rw [he])
  refine ⟨_, e, get_last tr e, by rw [he], .inr ?_⟩
  rcases h with rfl | h
  · exact h1
  · exact .trans (h.mono _) h1

theorem get_snoc {a : Event G L S} (h : (tr ++ [e])[i]? = some a) : (i = tr.length ∧ a = e) ∨ (i < tr.length ∧ tr[i]? = some a) := by
  have hl := (List.getElem?_eq_some_iff.1 h).1
  simp only [List.length_append, List.length_singleton] at hl
  by_cases hi : i < tr.length
  · exact .inr ⟨hi, by rwa [List.getElem?_append_left hi] at h⟩
  · have : i = tr.length := by omega
    subst this
    rw [get_last] at h
    exact .inl ⟨rfl, by simpa using h.symm⟩

theorem RaceFree.nil : RaceFree ([] : List (Event G L S)) := fun i j a b _ hi => by simp at hi

theorem RaceFree.snoc (h : RaceFree tr) (hk : ∀ (i : Nat) (a : Event G L S), tr[i]? = some a → Conflict a e → Known tr e.g i) : RaceFree (tr ++ [e]) := by
  intro i j a b hij hi hj hc
  rcases get_snoc hj with ⟨rfl, rfl⟩ | ⟨hjl, hj'⟩
  · rcases get_snoc hi with ⟨rfl, _⟩ | ⟨_, hi'⟩
    · omega
    · exact (hk i a hi' hc).hb rfl
  · rcases get_snoc hi with ⟨rfl, _⟩ | ⟨_, hi'⟩
    · omega
    · exact (h i j a b hij hi' hj' hc).mono _

/-- A synchronisation races with nothing. -/
theorem RaceFree.snoc_sync (h : RaceFree tr) (he : (∃ s, e.op = .release s) ∨ ∃ s, e.op = .acquire s) : RaceFree (tr ++ [e]) := by
  refine h.snoc fun i a _ hc => ?_
  obtain ⟨l, hc⟩ := hc
  rcases he with ⟨s, he⟩ | ⟨s, he⟩ <;> rw [he] at hc <;> simp at hc

end Resmix.Race
