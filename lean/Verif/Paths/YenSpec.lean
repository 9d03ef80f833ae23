import Verif.Paths.Yen

/-! # Specification of the paths between two coordinates -/
namespace Verif.Paths

open Verif.Layouts Verif.Clocking

/-- A path from `s` to `t` that visits no coordinate twice and consists of permitted steps. -/
structure Route (l : RLayout) (crossings : Bool) (s t : Coord) (p : List Coord) : Prop where
  head : p.head? = some s
  last : p.getLast? = some t
  nodup : p.Nodup
  chain : p.IsChain (Move l crossings t)

end Verif.Paths
