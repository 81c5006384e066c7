/-!
# Outcomes of modelled C++ operations

A C++ member function either returns, throws an exception (leaving the object in some
state), or runs into undefined behaviour.  The three cases are kept apart.
-/

namespace CoEcs

/-- The exceptions that appear in the modelled code:
`entity_not_found`, `component_not_found`, `insufficient_chunk_size`
(/repo/include/co_ecs/exceptions.hpp), `std::out_of_range`
(/repo/include/co_ecs/detail/sparse_table.hpp:233, detail/hash_table.hpp:464) and
`std::invalid_argument` (/repo/include/co_ecs/type_meta.hpp:40); `user` is thrown by a constructor of a
component (only in `Model/Throwing.lean`). -/
inductive Exn where
  | entityNotFound
  | componentNotFound
  | insufficientChunkSize
  | outOfRange
  | invalidArgument
  | user
  deriving DecidableEq, Repr

/-- Result of an operation on an object of type `σ` returning `α`.
`throw` carries the state the object is left in, `ub` stands for undefined behaviour:
an out-of-bounds index, a null dereference, use of an unconstructed slot, or a violated
`assert` (which is undefined behaviour or an abort depending on the build). -/
inductive Res (σ α : Type _) where
  | ok (s : σ) (a : α)
  | throw (s : σ) (e : Exn)
  | ub
  deriving DecidableEq, Repr

/-- Result of a read-only operation. -/
inductive Obs (α : Type _) where
  | ok (a : α)
  | throw (e : Exn)
  | ub
  deriving DecidableEq, Repr

end CoEcs
