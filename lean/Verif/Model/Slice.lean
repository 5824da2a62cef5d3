import Verif.Model.Ecc
set_option autoImplicit false
/-
Go slices as views of arrays, for what `AuthEncode` does to the memory of its caller (internal/ecc/reedsolomon.go:41).
-/
namespace Resmix.Ecc.Slice

/-- The memory: the arrays allocated so far. -/
abbrev Mem := List Bytes

/-- A slice: an array, an offset in it, length and capacity. -/
structure Slice where
  arr : Nat
  off : Nat
  len : Nat
  cap : Nat
deriving DecidableEq, Repr

/-- The array lies where the slice says. -/
def Valid (m : Mem) (s : Slice) : Prop := ∃ a, m[s.arr]? = some a ∧ s.off + s.cap ≤ a.length ∧ s.len ≤ s.cap

/-- The bytes of a slice. -/
def bytes (m : Mem) (s : Slice) : Bytes := ((m.getD s.arr []).drop s.off).take s.len

/-- The bytes of an array with `xs` written from position `i`. -/
def overwrite (a : Bytes) (i : Nat) (xs : Bytes) : Bytes := a.take i ++ xs ++ a.drop (i + xs.length)

/-- Go's `append(s, xs...)`: in place if the capacity suffices, otherwise into a new array (the capacity of the new slice, which Go leaves open, is taken to
be its length). -/
def goAppend (m : Mem) (s : Slice) (xs : Bytes) : Mem × Slice :=
  if s.len + xs.length ≤ s.cap then
    (m.set s.arr (overwrite (m.getD s.arr []) (s.off + s.len) xs), { s with len := s.len + xs.length })
  else (m ++ [bytes m s ++ xs], { arr := m.length, off := 0, len := s.len + xs.length, cap := s.len + xs.length })

/-- internal/ecc/reedsolomon.go:41, 50-67: what `AuthEncode(data)` does to memory, and the chunks it hands to the workers, which copy them
(lines 84-85) before they compute: afterwards nothing of the caller's memory is written. -/
def encodeMem (m : Mem) (data : Slice) : Mem × List Bytes :=
  let r := goAppend m data (List.replicate numChunks 0)
  (r.1, (List.range numChunks).map (chunkOf (bytes r.1 r.2)))

end Resmix.Ecc.Slice
