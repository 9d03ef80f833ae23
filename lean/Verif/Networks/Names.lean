/-!
# Model of `utils/name_utils.hpp`

`restore_names` without and with a mapping of signals, for types that have names. The overload for branching signals is not modelled.
-/
namespace Verif.Names

/-- A signal: a node, complemented or not (mockturtle). -/
structure Sig where
  node : Nat
  compl : Bool
  deriving DecidableEq

/-- A network or layout with names: `mockturtle::names_view`. `name` is `none` for types without a name. -/
structure Net where
  name : Option String
  pis : List Nat
  fanins : List (List Sig)
  pos : List Sig
  sigName : Sig → Option String
  outName : Nat → Option String

/-- Assigns names to keys, one after the other, if there are any. -/
def assign {K : Type} [DecidableEq K] (f : K → Option String) : List (K × Option String) → K → Option String
  | [] => f
  | (k, some v) :: l => assign (fun x => if x = k then some v else f x) l
  | (_, none) :: l => assign f l

/-- `restore_network_name`, name_utils.hpp:71-96. -/
def restoreNetworkName (src dst : Net) : Net :=
  { dst with name := dst.name.map fun _ => src.name.getD "" }

/-- `restore_input_names`, name_utils.hpp:106-129. The i-th input of the source is paired with the i-th of the destination. -/
def restoreInputNames (src dst : Net) : Net :=
  { dst with sigName := assign dst.sigName (List.zipWith (fun p q => (⟨q, false⟩, src.sigName ⟨p, false⟩)) src.pis dst.pis) }

/-- `restore_output_names`, name_utils.hpp:139-161. -/
def restoreOutputNames (src dst : Net) : Net :=
  { dst with outName := assign dst.outName ((List.range src.pos.length).map fun i => (i, src.outName i)) }

/-- `restore_signal_names`, name_utils.hpp:173-200. -/
def restoreSignalNames (src dst : Net) (old2new : Nat → Sig) : Net :=
  { dst with sigName := assign dst.sigName (src.fanins.flatten.map fun f => (old2new f.node, src.sigName f)) }

/-- `restore_names`, name_utils.hpp:252-258. -/
def restoreNames (src dst : Net) : Net :=
  restoreOutputNames src (restoreInputNames src (restoreNetworkName src dst))

/-- `restore_names` with a mapping of signals, name_utils.hpp:271-278. -/
def restoreNamesBy (src dst : Net) (old2new : Nat → Sig) : Net :=
  restoreOutputNames src (restoreSignalNames src (restoreInputNames src (restoreNetworkName src dst)) old2new)

end Verif.Names
