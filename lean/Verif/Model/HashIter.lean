import Verif.Model.HashTable

/-!
# Writing through iterators of hash maps (/repo/include/co_ecs/detail/hash_table.hpp:42, 175-260)

The `value_type` of a map is `std::pair<key_type, mapped_type>` (line 42), not `std::pair<const key_type, mapped_type>`, and
`operator*` and `operator->` of the iterator of a non-const map give a reference and a pointer to it (lines 183-184, 231-239).
For a set they give a reference to the key itself.
-/

namespace CoEcs.HTable
variable {K V : Type}

/-- `it->first = k; it->second = v;`, or `*it = {k, v}`, for an iterator at bucket `p`: the pair is overwritten, the stored hash and
the probe length (`bucket_info`, hash_table.hpp:53-57) are not. -/
def write (t : HTable K V) (p : Nat) (k : K) (v : V) : Run (HTable K V) :=
  match t.slot? p with
  | some (some e) => .ok { t with slots := t.slots.set p (some { e with key := k, val := v }) }
  | _ => .ub

end CoEcs.HTable
