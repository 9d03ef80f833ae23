import Verif.SidbDesign.Random
import Verif.Iter.Model

/-!
# Model of `design_sidb_gates` (`algorithms/physical_design/design_sidb_gates.hpp`)

The threads are a transition system: a schedule is a list of thread numbers. The lock around the results makes storing
one atomic step; the flags are atomic variables. Statistics are not modelled.
-/
namespace Verif.SidbDesign

open Verif.Coordinates Verif.Cells Verif.Iter

/-! ## Threads -/

/-- Where a thread is: between two items; having tested the flag for the first time; analysing an item; having stored a
result but not yet set the flag. -/
inductive Phase (α : Type)
  | idle
  | checked (a : α)
  | running (a : α)
  | stored
deriving DecidableEq

/-- What the threads do with an item: `good` decides whether it is stored. `first`: `AFTER_FIRST_SOLUTION`. `twice`: the
flag is tested again before the analysis (`run_quickcell`, design_sidb_gates.hpp:442-446). -/
structure Job (α : Type) where
  good : α → Bool
  first : Bool
  twice : Bool

/-- The shared variables and, for each thread, its remaining items and where it is. -/
structure Pool (α : Type) where
  out : List α
  found : Bool
  thr : List (List α × Phase α)

section
variable {α : Type}

/-- One atomic step of thread `i`, design_sidb_gates.hpp:227-253, 264-280 and 437-493; `none` if the thread has
returned. -/
def Job.step (J : Job α) (s : Pool α) (i : Nat) : Option (Pool α) :=
  match s.thr[i]? with
  | some (a :: todo, .idle) =>
    if s.found && J.first then some { s with thr := s.thr.set i ([], .idle) }
    else some { s with thr := s.thr.set i (todo, if J.twice then .checked a else .running a) }
  | some (todo, .checked a) =>
    if s.found && J.first then some { s with thr := s.thr.set i (todo, .idle) }
    else some { s with thr := s.thr.set i (todo, .running a) }
  | some (todo, .running a) =>
    if J.good a then some { s with out := s.out ++ [a], thr := s.thr.set i (todo, .stored) }
    else some { s with thr := s.thr.set i (todo, .idle) }
  | some (todo, .stored) => some { s with found := true, thr := s.thr.set i (todo, .idle) }
  | _ => none

/-- A schedule. -/
def Job.run (J : Job α) : Pool α → List Nat → Option (Pool α)
  | s, [] => some s
  | s, i :: es => (J.step s i).bind (fun s' => J.run s' es)

/-- All threads have returned. -/
def Pool.Joined (s : Pool α) : Prop := ∀ t ∈ s.thr, t = ([], .idle)

/-- The distribution of the items, design_sidb_gates.hpp:254-270, 429-466 and 643-660, with `T` hardware threads;
`none`: the division by the number of threads is undefined. -/
def chunks (T : Nat) (items : List α) : Option (List (List α)) :=
  let num := min T items.length
  if num = 0 then none
  else
    let size := (items.length + num - 1) / num
    some ((List.range num).map (fun i => (items.drop (i * size)).take (min (i * size + size) items.length - i * size)))

/-- The threads at their start. -/
def Pool.start (ls : List (List α)) : Pool α := ⟨[], false, ls.map (fun l => (l, .idle))⟩

/-- `out` is what the threads have stored when all of them are joined, in some schedule. -/
def Finished (J : Job α) (T : Nat) (items out : List α) : Prop :=
  ∃ ls es s, chunks T items = some ls ∧ J.run (.start ls) es = some s ∧ s.Joined ∧ s.out = out

end

/-! ## Design -/

/-- `design_sidb_gates_impl`, design_sidb_gates.hpp:504-553. `canvas` is `all_sidbs_in_canvas`, `operational` is
`is_operational` with the given parameters, `simulated` is the same with the strategy `SIMULATION_ONLY`, `pruned` tells
for a canvas and a layout whether `is_layout_invalid` gives a reason under some input pattern, `neutral` is
`is_neutrally_charged_defect`. -/
structure Setting (C D : Type) where
  skeleton : Lyt C D
  affected : List C
  canvas : List C
  number : Nat
  first : Bool
  threads : Nat
  operational : Lyt C D → Bool
  simulated : Lyt C D → Bool
  pruned : Lyt C D → Lyt C D → Bool
  neutral : D → Bool

section
variable {C D : Type} [DecidableEq C]

/-- One round of the loop of `skeleton_layout_with_canvas_sidbs`, design_sidb_gates.hpp:720-733. -/
def Setting.addDot (S : Setting C D) (l : Lyt C D) (c : C) : Lyt C D :=
  if l.cells.getCellType c = .empty then
    if S.skeleton.defective c then l else l.assign c .logic
  else l

/-- `skeleton_layout_with_canvas_sidbs`, design_sidb_gates.hpp:714-736. -/
def Setting.withDots (S : Setting C D) (cs : List C) : Lyt C D := cs.foldl S.addDot S.skeleton

/-- The cells with the given indices. Indices out of range do not occur. -/
def Setting.pick (S : Setting C D) (is : List Nat) : List C := is.filterMap (fun i => S.canvas[i]?)

/-- The combinations, design_sidb_gates.hpp:210-211 and 684-685. -/
def Setting.combinations (S : Setting C D) : List (List Nat) := allCombinations S.number S.canvas.length

/-- The result of `run_automatic_exhaustive_gate_designer`, design_sidb_gates.hpp:206-292, in some schedule and for some
shuffling of the combinations. -/
def Setting.Exhaustive (S : Setting C D) (out : List (Lyt C D)) : Prop :=
  if S.combinations = [] then out = []
  else ∃ cs out', cs.Perm S.combinations ∧
    Finished ⟨fun is => S.operational (S.withDots (S.pick is)), S.first, false⟩ S.threads cs out' ∧
    out = out'.map (fun is => S.withDots (S.pick is))

/-- The loop of `design_canvas_layout`, design_sidb_gates.hpp:748-763. -/
def Setting.canvasDots (S : Setting C D) : List C → Lyt C D → Option (Lyt C D)
  | [], l => some l
  | c :: cs, l =>
    if S.skeleton.cells.getCellType c = .empty then
      if S.skeleton.defective c then none else S.canvasDots cs (l.assign c .logic)
    else S.canvasDots cs l

/-- `design_canvas_layout`, design_sidb_gates.hpp:744-777. -/
def Setting.canvasLayout (S : Setting C D) (cs : List C) : Option (Lyt C D) :=
  (S.canvasDots cs blank).map (fun l => S.skeleton.cells.cells.foldl
    (fun l c => if S.skeleton.cells.getCellType c = .logic then l.assign c .logic else l) l)

/-- `determine_all_possible_canvas_layouts`, design_sidb_gates.hpp:682-706. -/
def Setting.canvasLayouts (S : Setting C D) : List (Lyt C D) :=
  S.combinations.filterMap (fun is => S.canvasLayout (S.pick is))

/-- `current_layout`, design_sidb_gates.hpp:584-593. -/
def Setting.candidate (S : Setting C D) (canvas : Lyt C D) : Lyt C D :=
  canvas.cells.cells.foldl (fun l c => l.assign c .logic) S.skeleton

/-- The result of `run_pruning`, design_sidb_gates.hpp:563-674, in some schedule. -/
def Setting.Pruning (S : Setting C D) (out : List (Lyt C D)) : Prop :=
  if S.canvasLayouts = [] then out = []
  else ∃ out', Finished ⟨fun c => !c.cells.isEmpty && !S.pruned c (S.candidate c), false, false⟩ S.threads
      S.canvasLayouts out' ∧ out = out'.map S.candidate

/-- The result of `run_quickcell`, design_sidb_gates.hpp:391-496, in some schedule. -/
def Setting.QuickCell (S : Setting C D) (out : List (Lyt C D)) : Prop :=
  ∃ cands, S.Pruning cands ∧
    if cands = [] then out = [] else Finished ⟨S.simulated, S.first, true⟩ S.threads cands out

/-! ## Random design -/

/-- Where a thread of `run_random_design` is: about to test the flag; having a layout to analyse; having stored a
layout; returned. -/
inductive RPhase (C D : Type)
  | idle
  | analysing (l : Lyt C D)
  | stored
  | returned

/-- The layouts found, the flag and the threads of `run_random_design`, design_sidb_gates.hpp:301-375. -/
structure RPool (C D : Type) where
  out : List (Lyt C D)
  found : Bool
  thr : List (RPhase C D)

/-- The layout as it is analysed: without neutral defects, design_sidb_gates.hpp:335-346. -/
def Setting.withoutNeutral (S : Setting C D) (l : Lyt C D) : Lyt C D :=
  { l with defects := l.defects.filter (fun d => !S.neutral d.2) }

/-- The layout as it is stored: with the neutral defects of the skeleton, design_sidb_gates.hpp:355-366. -/
def Setting.restoreNeutral (S : Setting C D) (l : Lyt C D) : Lyt C D :=
  { cells := l.cells
    defects := (S.skeleton.defects.filter (fun d => S.neutral d.2)).foldl
      (fun ds d => Cells.assign ds d.1 d.2) l.defects }

/-- `generate_random_sidb_layout` returns `l` for some random numbers, design_sidb_gates.hpp:307-309, 328. `Area` are the
coordinates that can be drawn. -/
def Setting.Drawn (S : Setting C D) (Area : C → Prop) (l : Lyt C D) : Prop :=
  ∃ (P : Params C D) (draw : Nat → C) (j : Nat), P.number = S.number ∧ P.positive = .allowed ∧ P.attempts = 10000000 ∧
    (∀ k, Area (draw k)) ∧ generate P (some (S.skeleton, S.affected)) draw 1 0 = some (some l, j)

/-- One atomic step of thread `i` of `run_random_design`, design_sidb_gates.hpp:326-371. -/
inductive Setting.RStep (S : Setting C D) (Area : C → Prop) (s : RPool C D) (i : Nat) : RPool C D → Prop
  | stop : s.thr[i]? = some .idle → s.found = true → RStep S Area s i { s with thr := s.thr.set i .returned }
  | draw (l : Lyt C D) : s.thr[i]? = some .idle → s.found = false → S.Drawn Area l →
      RStep S Area s i { s with thr := s.thr.set i (.analysing l) }
  | again (l : Lyt C D) : s.thr[i]? = some (.analysing l) → S.operational (S.withoutNeutral l) = false →
      RStep S Area s i { s with thr := s.thr.set i .idle }
  | store (l : Lyt C D) : s.thr[i]? = some (.analysing l) → S.operational (S.withoutNeutral l) = true →
      RStep S Area s i { s with
        out := s.out ++ [S.restoreNeutral (S.withoutNeutral l)], thr := s.thr.set i .stored }
  | finish : s.thr[i]? = some .stored → RStep S Area s i { s with found := true, thr := s.thr.set i .returned }

/-- The states that can be reached, design_sidb_gates.hpp:311-323. -/
inductive Setting.RReach (S : Setting C D) (Area : C → Prop) : RPool C D → Prop
  | start : RReach S Area ⟨[], false, List.replicate (min S.threads S.canvasLayouts.length) .idle⟩
  | step {s s' : RPool C D} {i : Nat} : RReach S Area s → S.RStep Area s i s' → RReach S Area s'

/-- The result of `run_random_design`, design_sidb_gates.hpp:301-384, in some schedule and for some random numbers. -/
def Setting.RandomDesign (S : Setting C D) (Area : C → Prop) (out : List (Lyt C D)) : Prop :=
  ∃ s, S.RReach Area s ∧ (∀ t ∈ s.thr, t = .returned) ∧ s.out = out

end
end Verif.SidbDesign
