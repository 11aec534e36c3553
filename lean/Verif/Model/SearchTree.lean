import Mathlib.Data.List.Basic

/-!
# Model of `std::map` as a search tree with any comparator

The other parts of the model represent a `std::map` by a strictly sorted list (`OMap`), which is right
if the comparator is a linear order.  Here the container is the search tree of libstdc++, and the
comparator any function, so that one can see what happens with keys that cannot be ordered, such as
vectors with NaNs.  An iterator is its position in the order of iteration; `end()` is the number of
elements.  The colours of the nodes and the rotations are not modelled: after an insertion the tree is
rebalanced by any function that keeps the order of iteration.
-/

namespace Apollo

/-- A search tree: the nodes of a `std::map`. -/
inductive SearchTree (κ α : Type)
  | leaf
  | node (left : SearchTree κ α) (key : κ) (value : α) (right : SearchTree κ α)

namespace SearchTree

variable {κ α : Type}

/-- The elements in the order of iteration. -/
def toList : SearchTree κ α → List (κ × α)
  | .leaf => []
  | .node l k v r => l.toList ++ (k, v) :: r.toList

/-- `std::map::size`. -/
def size : SearchTree κ α → ℕ
  | .leaf => 0
  | .node l _ _ r => l.size + 1 + r.size

/-- libstdc++ `_M_lower_bound`: go left where the key of the node is not less, and remember the node. -/
def lowerBound (lt : κ → κ → Bool) (k : κ) : SearchTree κ α → ℕ
  | .leaf => 0
  | .node l k' _ r => if !lt k' k then l.lowerBound lt k else l.size + 1 + r.lowerBound lt k

/-- `std::map::find` (src/Dataset.cpp:33): the lower bound, unless its key is greater. -/
def find (lt : κ → κ → Bool) (k : κ) (t : SearchTree κ α) : Option ℕ :=
  match t.toList[t.lowerBound lt k]? with
  | none => none
  | some e => if lt k e.1 then none else some (t.lowerBound lt k)

/-- Write to an element through an iterator: `it->second = …` (src/Dataset.cpp:38). -/
def modify (g : α → α) : SearchTree κ α → ℕ → SearchTree κ α
  | .leaf, _ => .leaf
  | .node l k v r, i =>
    if i < l.size then .node (l.modify g i) k v r
    else if i = l.size then .node l k (g v) r
    else .node l k v (r.modify g (i - l.size - 1))

/-- libstdc++ `_M_get_insert_unique_pos`, first part: the place where the descent ends. -/
def insertPos (lt : κ → κ → Bool) (k : κ) : SearchTree κ α → ℕ
  | .leaf => 0
  | .node l k' _ r => if lt k k' then l.insertPos lt k else l.size + 1 + r.insertPos lt k

/-- libstdc++ `_M_insert_node`: a new node where the descent ended. -/
def put (lt : κ → κ → Bool) (k : κ) (v : α) : SearchTree κ α → SearchTree κ α
  | .leaf => .node .leaf k v .leaf
  | .node l k' v' r =>
    if lt k k' then .node (l.put lt k v) k' v' r else .node l k' v' (r.put lt k v)

/-- `std::map::emplace` (src/Dataset.cpp:35): the new element is inserted if it is the first one or
the key before it is less (libstdc++ `_M_get_insert_unique_pos`, second part). -/
def emplace (lt : κ → κ → Bool) (balance : SearchTree κ α → SearchTree κ α) (k : κ) (v : α)
    (t : SearchTree κ α) : SearchTree κ α :=
  match t.insertPos lt k with
  | 0 => balance (t.put lt k v)
  | i + 1 =>
    match t.toList[i]? with
    | none => t
    | some e => if lt e.1 k then balance (t.put lt k v) else t

end SearchTree
end Apollo
