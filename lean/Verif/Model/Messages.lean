import Verif.Model.HandlePool
import Verif.Model.Layout

/-!
# Model of the messages of exceptions (/repo/include/co_ecs/exceptions.hpp)

A message is the list of characters written to the stream.  Numbers are written in decimal digits, as in the
"C" locale; a locale that groups digits is not modelled.
-/

namespace CoEcs.Messages

/-- A digit. -/
def digit (d : Nat) : Char := Char.ofNat (48 + d)

/-- `operator<<` of the standard library for unsigned integers. -/
def decimal (n : Nat) : List Char := if n < 10 then [digit n] else decimal (n / 10) ++ [digit (n % 10)]
termination_by n
decreasing_by omega

/-- `entity_not_found`, exceptions.hpp:18-22; thrown by base_registry.hpp:268-272 for the handle asked for. -/
def entityNotFound (h : Handle) : List Char :=
  "entity (".toList ++ decimal h.id ++ ", ".toList ++ decimal h.gen ++ ")".toList ++ " does not exist".toList

/-- `component_not_found`, exceptions.hpp:41-45, for a type with this name. -/
def componentNotFound (name : List Char) : List Char := "component \"".toList ++ name ++ "\" not found".toList

/-- `insufficient_chunk_size`, exceptions.hpp:65-70. -/
def insufficientChunkSize (requested size : Nat) : List Char :=
  "Total size of components ".toList ++ decimal requested ++ " bytes exceeds chunk block size of ".toList ++ decimal size ++ " bytes".toList

/-- The message with which `get_max_size` (archetype.hpp:199-224) throws, if it does: the size reported is the one compared, line 213. -/
def chunkSizeMessage (comps : List CompMeta) : Option (List Char) :=
  if Layout.alignedSize comps > Layout.chunkBytes then some (insufficientChunkSize (Layout.alignedSize comps) Layout.chunkBytes) else none

end CoEcs.Messages
