import Verif.Model.Registry

/-!
# The type `entity` as a component
(/repo/include/co_ecs/entity_ref.hpp:408-411, base_registry.hpp:194-203, archetype.hpp:253-258, chunk.hpp:308-335)

`entity` meets the concept `component` (component.hpp:85-87), and every archetype has a block for it (archetype.hpp:177-179).
`create`, `set`, `get_or_insert` and the mutable `get` do not compile for it (static_assert, chunk.hpp:219-222); `has`, `remove`,
views and the `get` of a `const_entity_ref` do.
-/

namespace CoEcs.Reg
variable {V : Type}

/-- `const_entity_ref::get<entity>`: the block of the handles is read (component_fetch, chunk.hpp:308-335). -/
def getEntity (r : Reg V) (h : Handle) : Obs Handle :=
  match r.rowOf h with
  | .ub => .ub
  | .throw e => .throw e
  | .ok (a, row) =>
    if none ∈ a.blocks then
      match (row none).read with
      | some (.ent e) => .ok e
      | _ => .ub
    else .throw .componentNotFound

end CoEcs.Reg
