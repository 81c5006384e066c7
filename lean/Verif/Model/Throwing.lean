import Verif.Model.Registry

/-!
# Registry operations whose component constructor throws
(/repo/include/co_ecs/entity_ref.hpp)

`Model/Registry.lean` assumes that component constructors do not throw.  For `create` this is what the
concept `component` (component.hpp:82-84) asks for: components are moved in.  `set` and `get_or_insert`
construct from any arguments, and these constructors may throw.
-/

namespace CoEcs
namespace Reg
variable {V : Type}

/-- `entity_ref::set`, entity_ref.hpp:176-185, when the constructor of the component throws: `set_impl` has
already returned, in both branches. -/
def setThrows (ty : Types) (r : Reg V) (h : Handle) (c : Nat) : Res (Reg V) Unit :=
  match r.setImpl ty h c with
  | .ub => .ub
  | .throw r e => .throw r e
  | .ok r' _ => .throw r' .user

/-- `entity_ref::get_or_insert`, entity_ref.hpp:149-156, when the constructor of the component throws; it is
called only if the component is new. -/
def getOrInsertThrows (ty : Types) (r : Reg V) (h : Handle) (c : Nat) : Res (Reg V) V :=
  match r.setImpl ty h c with
  | .ub => .ub
  | .throw r e => .throw r e
  | .ok r' (inserted, l) =>
    if inserted then .throw r' .user
    else
      match r'.readAt l c with
      | none => .ub
      | some v => .ok r' v

end Reg
end CoEcs
