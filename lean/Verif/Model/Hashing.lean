import Verif.Model.Profile

/-!
# Hashes of layers and soil types, and sets of them (`src/pystrata/site.py`)

`hash(self.__dict__.values())` is the hash of a `dict_values` object made for the call: that type has no hash of its own,
so it is that of the address of the object.  The object is freed at the end of the call.
-/

set_option autoImplicit false

namespace Verif.Hashing

open Verif.Profile

variable {K : Type} [Field K] [LinearOrder K]

/-- The objects with such a hash. -/
inductive Obj (K : Type) where
  | layer (l : Layer K)
  | soil (s : Soil K)

/-- site.py:363-364 `SoilType.__eq__` and site.py:1764-1768 `Layer.__eq__`: objects of different classes differ. -/
def Obj.pyEq : Obj K → Obj K → Bool
  | .layer a, .layer b => a.pyEq b
  | .soil a, .soil b => decide (a = b)
  | _, _ => false

/-- The free blocks of the size of a `dict_values` object, the one freed last first.  CPython takes the first of them; if
there is none, a new block `fresh`. -/
def alloc (fresh : Nat) : List Nat → Nat × List Nat
  | [] => (fresh, [])
  | a :: free => (a, free)

/-- site.py:366-367 and 1770-1771 `__hash__` of any object: the address of the view (CPython rotates its bits, which is
one to one), and the free blocks after the call. -/
def pyHash (fresh : Nat) (free : List Nat) (_ : Obj K) : Nat × List Nat :=
  let (a, rest) := alloc fresh free
  (a, a :: rest)

/-- A set: the entries with the hashes they had when they were added. -/
abbrev PySet (K : Type) := List (Nat × Obj K)

/-- `x in s`, where `x` has the hash `h` now: an entry with the same hash that is equal. -/
def PySet.has (s : PySet K) (h : Nat) (x : Obj K) : Bool := s.any fun e => decide (e.1 = h) && e.2.pyEq x

/-- `s.add(x)`. -/
def PySet.add (s : PySet K) (h : Nat) (x : Obj K) : PySet K := if s.has h x then s else s ++ [(h, x)]

/-- site.py:2144-2151 `Profile.iter_soil_types` with its set.  `addr k` is the `k`th hash taken; the consumer of the
generator may do anything in between. -/
def iterSoilTypes (addr : Nat → Nat) : Nat → PySet K → List (Layer K) → List (Soil K)
  | _, _, [] => []
  | k, s, l :: ls =>
    if s.has (addr k) (.soil l.soil) then iterSoilTypes addr (k + 1) s ls
    else l.soil :: iterSoilTypes addr (k + 2) (s.add (addr (k + 1)) (.layer l)) ls

end Verif.Hashing
