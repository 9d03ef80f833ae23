/-!
# Model of `io/network_reader.hpp`

The file system is what the given name points to. The parsers of lorina and the construction of networks are arguments: what they
do with a file is part of it.
-/
namespace Verif.NetReader

/-- Extensions of files, network_reader.hpp:50-54. -/
inductive Ext
  | verilog
  | aig
  | blif
  | other
  deriving DecidableEq

/-- What parsing of a file gives: a network, an error code or an exception, network_reader.hpp:185-211. -/
inductive Parse (N : Type)
  | network (n : N)
  | error
  | exception

/-- An entry of a directory or a file. -/
structure File (N : Type) where
  regular : Bool
  ext : Ext
  parse : Parse N

/-- What a name points to, network_reader.hpp:66-100. -/
inductive Target (N : Type)
  | missing
  | special
  | file (f : File N)
  | directory (fs : List (File N))

/-- Messages, network_reader.hpp:94, 99, 124-132, 204, 209. -/
inductive Msg
  | notRegular
  | missing
  | blif
  | parsing
  | unsupported
  deriving DecidableEq

/-- The state of a reader: its networks and what it wrote. -/
structure Reader (N : Type) where
  networks : List N
  out : List Msg

/-- `is_valid_extension`, network_reader.hpp:56-61. -/
def validExt (e : Ext) : Bool := e == .verilog || e == .aig || e == .blif

/-- `read`, network_reader.hpp:182-212. -/
def Reader.read {N : Type} (r : Reader N) (f : File N) : Reader N :=
  match f.parse with
  | .network n => { r with networks := r.networks ++ [n] }
  | .error => { r with out := r.out ++ [.parsing] }
  | .exception => { r with out := r.out ++ [.unsupported] }

/-- The handling of a collected file, network_reader.hpp:103-143; `noBlif` holds for AIGs, XAGs and MIGs. -/
def Reader.handle {N : Type} (noBlif : Bool) (r : Reader N) (f : File N) : Reader N :=
  match f.ext with
  | .verilog => r.read f
  | .aig => r.read f
  | .blif => if noBlif then { r with out := r.out ++ [.blif] } else r.read f
  | .other => r

/-- The collection of files, network_reader.hpp:63-100, with the messages. -/
def collect {N : Type} : Target N → List (File N) × List Msg
  | .missing => ([], [.missing])
  | .special => ([], [.notRegular])
  | .file f => (if validExt f.ext then [f] else [], [])
  | .directory fs => (fs.filter (fun f => f.regular && validExt f.ext), [])

/-- The constructor, network_reader.hpp:48-144. -/
def Reader.open {N : Type} (noBlif : Bool) (t : Target N) : Reader N :=
  (collect t).1.foldl (Reader.handle noBlif) ⟨[], (collect t).2⟩

/-- `get_networks`, network_reader.hpp:151-161; a stable sort stands for `std::ranges::sort`, which may order networks of the same
number of gates differently. -/
def Reader.getNetworks {N : Type} (gates : N → Nat) (sorted : Bool) (r : Reader N) : List N × Reader N :=
  let r' := if sorted then { r with networks := r.networks.mergeSort (fun a b => decide (gates a ≤ gates b)) } else r
  (r'.networks, r')

end Verif.NetReader
