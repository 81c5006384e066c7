import Verif.Model.SparseTable

/-!
# Writing through iterators of sparse maps (/repo/include/co_ecs/detail/sparse_table.hpp:22, 30-31, 73-84, 173-175)

The iterators are those of the `std::vector` of pairs with non-const keys (lines 22, 30); `begin()`, `find` and `emplace` of a non-const map
give the ones to non-const.
-/

namespace CoEcs.SparseTable
variable {V : Type}

/-- `*it = {k, v}` for an iterator at position `i`: `_sparse` is not changed. -/
def write (t : SparseTable V) (i : Nat) (k : Nat) (v : V) : Obs (SparseTable V) :=
  if i < t.dense.length then .ok { t with dense := t.dense.set i (k, v) } else .ub

end CoEcs.SparseTable
