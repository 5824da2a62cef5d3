import Verif.Model.Base
/-
Go maps (and msync.Map, internal/msync/map.go:1-45, a typed wrapper of sync.Map) as association lists. The order of the list
carries no meaning: where the code ranges over a map, the model takes an arbitrary permutation of the entries.
-/
namespace Resmix

/-- Go `map[κ]ν`. -/
abbrev GoMap (κ ν : Type) := List (κ × ν)

namespace GoMap
variable {κ ν : Type} [DecidableEq κ]

/-- `v, ok := m[k]`; also msync.Map `Load` (internal/msync/map.go:9-16). -/
def lookup : GoMap κ ν → κ → Option ν
  | [], _ => none
  | (k', v) :: m, k => if k' = k then some v else lookup m k

/-- `delete(m, k)`; also msync.Map `Delete` (internal/msync/map.go:22-24). -/
def erase : GoMap κ ν → κ → GoMap κ ν
  | [], _ => []
  | e :: m, k => if e.1 = k then erase m k else e :: erase m k

/-- `m[k] = v`; also msync.Map `Store` (internal/msync/map.go:18-20). -/
def insert (m : GoMap κ ν) (k : κ) (v : ν) : GoMap κ ν := (k, v) :: erase m k

/-- The keys are pairwise distinct (true of every Go map). -/
def NodupKeys (m : GoMap κ ν) : Prop := (m.map Prod.fst).Nodup

end GoMap
end Resmix
