import Verif.Iter.Model

/-!
# Model of the displacement robustness domain

`algorithms/simulation/sidb/displacement_robustness_domain.hpp`. Positions are those of cube coordinates without bounds; a SiQAD
coordinate `{x, y, z}` stands for `(x, 2 * y + z)`, see C03. The probability of fabricating an operational gate is not modelled.
-/
namespace Verif.Displacement

open Verif.Iter

/-- Columns and rows of H-Si positions. -/
abbrev Pos := Int × Int

/-- The coordinate system of the layout. -/
inductive System where
  | siqad
  | cube
  | offset
  deriving DecidableEq

/-- `displacement_robustness_domain_params`, displacement_robustness_domain.hpp:56-127: displacement variations, whether the
policy is `STAY_ON_ORIGINAL_DIMER`, and fixed SiDBs. -/
structure Params where
  dx : Nat
  dy : Nat
  stay : Bool
  fixed : List Pos

/-- The dimer row of `to_siqad_coord`, coordinates.hpp:825-833. -/
def dimer (y : Int) : Int := if y ≥ 0 then (y - y.tmod 2).tdiv 2 else (y + y.tmod 2).tdiv 2

/-- The two corners that the displacements of an SiDB span, displacement_robustness_domain.hpp:386-500. For cube and offset
coordinates, both corners are replaced if the SiDB stays on its dimer (460-467). -/
def corners (sys : System) (ps : Params) (c : Pos) : Pos × Pos :=
  if c ∈ ps.fixed then (c, c)
  else match sys with
    | .siqad =>
      let seX := c.1 + ps.dx
      let nwX := c.1 - ps.dx
      if ps.stay = true ∧ ps.dy > 0 then ((nwX, 2 * dimer c.2), (seX, 2 * dimer c.2 + 1))
      else ((nwX, c.2 - ps.dy), (seX, c.2 + ps.dy))
    | .cube =>
      let nwX := c.1 - ps.dx
      let seX := c.1 + ps.dx
      if ps.stay = true ∧ ps.dy > 0 then ((c.1, 2 * dimer c.2), (c.1, 2 * dimer c.2 + 1))
      else ((seX, c.2 + ps.dy), (nwX, c.2 - ps.dy))
    | .offset =>
      let nwX := if c.1 < ps.dx then 0 else c.1 - ps.dx
      let seX := c.1 + ps.dx
      if ps.stay = true ∧ ps.dy > 0 then ((c.1, 2 * dimer c.2), (c.1, 2 * dimer c.2 + 1))
      else ((seX, c.2 + ps.dy), (nwX, if c.2 < ps.dy then 0 else c.2 - ps.dy))

/-- The loop of `all_coordinates_in_spanned_area`, layout_utils.hpp:655-667, 689-702; coordinates are compared by row, then by
column. The first argument bounds the number of iterations. -/
def spanLoop (nw se : Pos) : Nat → Pos → List Pos
  | 0, _ => []
  | fuel + 1, c =>
    if c.2 < se.2 ∨ (c.2 = se.2 ∧ c.1 ≤ se.1) then
      c :: (if c.1 < se.1 then spanLoop nw se fuel (c.1 + 1, c.2) else spanLoop nw se fuel (nw.1, c.2 + 1))
    else []

/-- `all_coordinates_in_spanned_area`, layout_utils.hpp:631-706. -/
def spanned (a b : Pos) : List Pos :=
  let nw : Pos := (min a.1 b.1, min a.2 b.2)
  let se : Pos := (max a.1 b.1, max a.2 b.2)
  spanLoop nw se (((se.2 - nw.2).toNat + 1) * ((se.1 - nw.1).toNat + 1)) nw

/-- `calculate_all_possible_displacements_for_each_sidb`, displacement_robustness_domain.hpp:380-503, for one SiDB. -/
def displacements (sys : System) (ps : Params) (c : Pos) : List Pos := spanned (corners sys ps c).1 (corners sys ps c).2

/-- All combinations, displacement_robustness_domain.hpp:513. -/
def assignments (sys : System) (ps : Params) (cells : List Pos) : List (List Pos) :=
  cartesianCombinations (cells.map (displacements sys ps))

/-- `displacement_analysis_mode`, displacement_robustness_domain.hpp:56-127, with `percentage_of_analyzed_displaced_layouts` as a fraction. -/
inductive Mode where
  | exhaustive
  | random (num den : Nat)

/-- `max_number_of_layouts_with_displaced_sidbs`, displacement_robustness_domain.hpp:522-532, in exact arithmetic. -/
def Mode.limit : Mode → Nat → Nat
  | .exhaustive, n => n
  | .random num den, n => max 1 (n * min num den / den)

section
variable {T : Type}

/-- `assign_cell_type` of a type that is not empty, cell_level_layout.hpp:163-191, for the map from cells to types. -/
def assign (l : List (Pos × T)) (c : Pos × T) : List (Pos × T) := c :: l.filter (fun d => d.1 != c.1)

/-- The displaced layout, displacement_robustness_domain.hpp:542-548; `types` are the types of the original SiDBs. -/
def build (types : List T) (a : List Pos) : List (Pos × T) := (a.zip types).foldl assign []

/-- The loop of `generate_valid_displaced_sidb_layouts`, displacement_robustness_domain.hpp:534-555, after the combinations
have been shuffled: combinations with too few cells count towards the limit. -/
def layoutLoop (types : List T) (limit : Nat) : Nat → List (List Pos) → List (List (Pos × T))
  | _, [] => []
  | i, a :: rest =>
    if i ≥ limit ∨ (i = 1 ∧ limit = 1) then []
    else if (build types a).length = types.length then build types a :: layoutLoop types limit (i + 1) rest
    else layoutLoop types limit (i + 1) rest

end

section
variable {α : Type}

/-- The slices handed to the threads, displacement_robustness_domain.hpp:221-242; `n` is the configured number of threads. -/
def slices (n : Nat) (ls : List α) : List (List α) :=
  let t := max (min (max n 1) ls.length) 1
  let size := (ls.length + t - 1) / t
  ((List.range t).takeWhile (fun i => decide (¬ i * size ≥ min (i * size + size) ls.length))).map (fun i =>
    (ls.drop (i * size)).take (min (i * size + size) ls.length - i * size))

/-- The domain and the statistics shared by the threads, and of each thread the layouts left and the layout it has simulated
but not yet stored. -/
structure State (α : Type) where
  dom : List (α × Bool)
  operational : Nat
  nonOperational : Nat
  thr : List (List α × Option (α × Bool))

/-- The threads before their first step; without layouts there are none, displacement_robustness_domain.hpp:199-202. -/
def State.start (n : Nat) (ls : List α) : State α := ⟨[], 0, 0, (slices n ls).map (fun l => (l, none))⟩

/-- One step of thread `i`: the simulation of a layout (displacement_robustness_domain.hpp:214), or, with the lock held, the
update of the domain and of the statistics (216-217, 569-582). `none`: the thread has returned. -/
def step (op : α → Bool) (s : State α) (i : Nat) : Option (State α) :=
  match s.thr[i]? with
  | some (todo, some r) => some ⟨s.dom ++ [r], if r.2 then s.operational + 1 else s.operational,
      if r.2 then s.nonOperational else s.nonOperational + 1, s.thr.set i (todo, none)⟩
  | some (l :: todo, none) => some { s with thr := s.thr.set i (todo, some (l, op l)) }
  | _ => none

/-- The schedule `es` of the threads. -/
def run (op : α → Bool) : State α → List Nat → Option (State α)
  | s, [] => some s
  | s, i :: es => (step op s i).bind (fun s' => run op s' es)

/-- All threads can be joined. -/
def State.Joined (s : State α) : Prop := ∀ t ∈ s.thr, t = ([], none)

end

/-- The possible outcomes of `determine_robustness_domain`, displacement_robustness_domain.hpp:191-265, over all shuffles and
schedules. -/
def Outcome {T : Type} (sys : System) (ps : Params) (mode : Mode) (n : Nat) (cells : List Pos) (types : List T)
    (op : List (Pos × T) → Bool) (s : State (List (Pos × T))) : Prop :=
  ∃ sh ls es, sh.Perm (assignments sys ps cells) ∧ ls.Perm (layoutLoop types (mode.limit sh.length) 0 sh) ∧
    run op (State.start n ls) es = some s ∧ s.Joined

end Verif.Displacement
