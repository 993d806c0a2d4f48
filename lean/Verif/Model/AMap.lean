/-!
# Finite maps

`HashMap` / `DashMap` as association lists; iteration order is the list order. Every operation is
atomic (the backend's maps are owned by one thread or protected by `DashMap`'s shard locks).
-/

namespace Verif

/-- A finite map. -/
abbrev AMap (κ α : Type) := List (κ × α)

namespace AMap

variable {κ α : Type} [DecidableEq κ]

/-- `HashMap::get`. -/
def get (m : AMap κ α) (k : κ) : Option α :=
  match m with
  | [] => none
  | (c, v) :: r => if k = c then some v else get r k

/-- `HashMap::contains_key`. -/
def has (m : AMap κ α) (k : κ) : Bool := (m.get k).isSome

/-- `HashMap::remove`. -/
def erase (m : AMap κ α) (k : κ) : AMap κ α := m.filter fun p => p.1 ≠ k

/-- `HashMap::insert`. -/
def insert (m : AMap κ α) (k : κ) (v : α) : AMap κ α := (k, v) :: m.erase k

/-- In-place update of an existing value (`get_mut`). -/
def update (m : AMap κ α) (k : κ) (f : α → α) : AMap κ α :=
  m.map fun p => if p.1 = k then (p.1, f p.2) else p

/-- The keys in iteration order. -/
def keys (m : AMap κ α) : List κ := m.map (·.1)

end AMap
end Verif
