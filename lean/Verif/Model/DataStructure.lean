import Verif.Model.Outcome

/-!
# `include/data_structure.hpp`

The two fixed-size containers. `operator[]` past the end of a `std::vector` is
undefined behaviour and an explicit outcome here.
-/

namespace Tinyfk

/-- data_structure.hpp:5-38 `SizedCache<DataT>` -/
structure SizedCache (D : Type) where
  /-- `cache_size_` -/
  size : Nat
  /-- `data_` -/
  data : List D
  /-- `cache_predicate_vector_` -/
  pred : List Bool

namespace SizedCache
variable {D : Type}

/-- data_structure.hpp:7-9 constructor; `dflt` is `DataT()` -/
def mk' (dflt : D) (n : Nat) : SizedCache D :=
  ⟨n, List.replicate n dflt, List.replicate n false⟩

/-- data_structure.hpp:13-16 `set_cache` -/
def setCache (c : SizedCache D) (id : Nat) (d : D) : Outcome (SizedCache D) :=
  if id < c.pred.length ∧ id < c.data.length then
    .ok { c with pred := c.pred.set id true, data := c.data.set id d }
  else .ub (.outOfBounds "SizedCache::set_cache")

/-- data_structure.hpp:18-24 `get_cache`; `none` is the null pointer -/
def getCache (c : SizedCache D) (id : Nat) : Outcome (Option D) :=
  match c.pred[id]? with
  | none => .ub (.outOfBounds "SizedCache::get_cache")
  | some false => .ok none
  | some true =>
    match c.data[id]? with
    | some d => .ok (some d)
    | none => .ub (.outOfBounds "SizedCache::get_cache data")

/-- data_structure.hpp:32 `clear` -/
def clear (c : SizedCache D) : SizedCache D := { c with pred := List.replicate c.size false }

/-- data_structure.hpp:26-31 `extend` -/
def extend (dflt : D) (c : SizedCache D) : SizedCache D :=
  clear ⟨c.size + 1, c.data ++ [dflt], c.pred ++ [false]⟩

end SizedCache

/-- data_structure.hpp:40-61 `SizedStack<ElementT>` -/
structure SizedStack (E : Type) where
  /-- `data_` -/
  data : List E
  /-- `current_idx_` -/
  cur : Nat

namespace SizedStack
variable {E : Type}

/-- data_structure.hpp:43-44 constructor; `dflt` is `ElementT()` -/
def mk' (dflt : E) (n : Nat) : SizedStack E := ⟨List.replicate n dflt, 0⟩

/-- data_structure.hpp:48 `reset` -/
def reset (s : SizedStack E) : SizedStack E := { s with cur := 0 }

/-- data_structure.hpp:47 `empty` -/
def empty (s : SizedStack E) : Bool := s.cur == 0

/-- data_structure.hpp:46 `size` -/
def size (s : SizedStack E) : Nat := s.cur

/-- data_structure.hpp:49-52 `push` -/
def push (s : SizedStack E) (e : E) : Outcome (SizedStack E) :=
  if s.cur < s.data.length then .ok ⟨s.data.set s.cur e, s.cur + 1⟩
  else .ub (.outOfBounds "SizedStack::push")

/-- data_structure.hpp:53-55 `top`; on an empty stack `current_idx_ - 1` wraps and the
access is out of bounds -/
def top (s : SizedStack E) : Outcome E :=
  match s.cur with
  | 0 => .ub (.outOfBounds "SizedStack::top")
  | n + 1 => Outcome.idx "SizedStack::top" s.data n

/-- data_structure.hpp:56 `pop`. On an empty stack the `size_t` index wraps around; the
model makes that an outcome of its own kind of undefined use. -/
def pop (s : SizedStack E) : Outcome (SizedStack E) :=
  match s.cur with
  | 0 => .ub (.outOfBounds "SizedStack::pop on empty")
  | n + 1 => .ok { s with cur := n }

end SizedStack
end Tinyfk
