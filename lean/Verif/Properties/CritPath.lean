import Verif.GateLevel.Model

/-!
# Model of `algorithms/properties/critical_path_length_and_throughput.hpp`

64-bit lengths and delays are natural numbers.
-/
namespace Verif.CritPath

open Verif.Layouts Verif.Clocking Verif.GateLevel

/-- What the algorithm asks a layout: `is_empty_tile`, `incoming_data_flow`, `get_clock_number`, `num_clocks`,
`is_pi_tile`, `is_wire_tile` and the tiles visited by `foreach_po`. -/
structure View where
  isEmpty : Coord → Bool
  inc : Coord → List Coord
  clk : Coord → Nat
  n : Nat
  isPi : Coord → Bool
  isWire : Coord → Bool
  pos : List Coord

/-- The view of a gate-level layout: gate_level_layout.hpp:1005-1008 (`is_empty_tile`), 1144-1153
(`incoming_data_flow`), 305-308 (`is_pi_tile`), 995-998 (`is_wire_tile`), 1039-1043 (`foreach_po`). -/
def ofState (m : Dim) (tp : Topo) (cs : Scheme) (s : State) : View where
  isEmpty := s.isEmptyTile
  inc t := s.fanins m tp cs true (s.getNode t)
  clk := cs.clock
  n := cs.numClocks
  isPi t := s.isPi (s.getNode t)
  isWire := s.isWireTile
  pos := s.outputs

/-- `path_info`, critical_path_length_and_throughput.hpp:80-86. -/
structure Info where
  length : Nat
  delay : Nat
  diff : Nat
deriving DecidableEq, Repr

/-- `delay_cache`, critical_path_length_and_throughput.hpp:88. -/
abbrev Cache := List (Coord × Info)

/-- `delay_cache.find(t)`, critical_path_length_and_throughput.hpp:88. -/
def Cache.find (c : Cache) (t : Coord) : Option Info := (List.find? (fun e => e.1 == t) c).map (·.2)

/-- The values of `signal_delay` for the incoming tiles in order, critical_path_length_and_throughput.hpp:111-112. -/
def collect (f : Cache → Coord → Option (Info × Cache)) : Cache → List Coord → Option (List Info × Cache)
  | c, [] => some ([], c)
  | c, t :: ts => do
    let (i, c1) ← f c t
    let (is, c2) ← collect f c1 ts
    some (i :: is, c2)

/-- `std::abs(static_cast<int64_t>(a - b))`. -/
def absDiff (a b : Nat) : Nat := if a ≥ b then a - b else b - a

/-- critical_path_length_and_throughput.hpp:114-140 without the addition of a primary input. `sort` is
`std::ranges::sort` by length, which is not stable; all that is known about it is that it sorts. -/
def dominant (sort : List Info → List Info) (infos : List Info) : Info :=
  let d : Info := match infos with
    | [i] => i
    | _ =>
      let l := sort infos
      let back := l.getLastD ⟨0, 0, 0⟩
      let front := l.headD ⟨0, 0, 0⟩
      ⟨back.length, back.delay, absDiff back.delay front.delay⟩
  { d with length := d.length + 1, delay := d.delay + 1 }

/-- `signal_delay`, critical_path_length_and_throughput.hpp:90-149, to the given recursion depth. -/
def signalDelay (v : View) (sort : List Info → List Info) : Nat → Cache → Coord → Option (Info × Cache)
  | 0, _, _ => none
  | k + 1, c, t =>
    if v.isEmpty t then some (⟨0, 0, 0⟩, c)
    else if v.inc t = [] then some (⟨1, v.clk t, 0⟩, c)
    else match c.find t with
      | some i => some (i, c)
      | none => do
        let (infos, c1) ← collect (signalDelay v sort k) c (v.inc t)
        let infos := if v.isPi t then infos ++ [⟨1, (v.clk t + (v.n - 1)) % v.n, 0⟩] else infos
        let d := dominant sort infos
        some (d, if v.isWire t then c1 else (t, d) :: c1)

/-- The loop over the outputs, critical_path_length_and_throughput.hpp:46-51. -/
def overPos (v : View) (sort : List Info → List Info) (fuel : Nat) : Cache → Nat → List Coord → Option (Nat × Cache)
  | c, cp, [] => some (cp, c)
  | c, cp, t :: ts => do
    let (i, c1) ← signalDelay v sort fuel c t
    overPos v sort fuel c1 (max i.length cp) ts

/-- The largest difference in the cache, 0 if it is empty, critical_path_length_and_throughput.hpp:53-59. -/
def maxDiff (c : Cache) : Nat := c.foldl (fun a e => max a e.2.diff) 0

/-- `cp_and_tp`, critical_path_length_and_throughput.hpp:23-33. -/
structure CpTp where
  criticalPathLength : Nat
  throughput : Nat
deriving DecidableEq, Repr

/-- `critical_path_length_and_throughput`, critical_path_length_and_throughput.hpp:44-68, 178-186. -/
def criticalPath (v : View) (sort : List Info → List Info) (fuel : Nat) : Option CpTp := do
  let (cp, c) ← overPos v sort fuel [] 0 v.pos
  some ⟨cp, maxDiff c / v.n + 1⟩

end Verif.CritPath
