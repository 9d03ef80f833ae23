import Verif.OpDomain.Model

/-!
# Model of contour tracing, `algorithms/simulation/sidb/operational_domain.hpp`

After the samples have been simulated, contour tracing is sequential. Its loops are modelled with a bound on the number of iterations (`fuel`);
`none` means that the bound was reached.
-/
namespace Verif.OpDomain

section
variable (rs : List Range) (op : PP → Bool)

/-- `is_step_point_operational`, operational_domain.hpp:1398-1475, while no other thread runs. -/
def query (dom : Dom) (p : SP) : Dom × Bool :=
  match contains dom (toPP rs p) with
  | some b => (dom, b)
  | none => (addValue dom (toPP rs p) (op (toPP rs p)), op (toPP rs p))

/-- The loop of `find_operational_contour_step_point`, operational_domain.hpp:1681-1702. -/
def walkLeft (start : SP) : Nat → Dom → SP → Dom × SP
  | 0, dom, latest => (dom, latest)
  | x + 1, dom, latest =>
    let left := start.set 0 x
    let r := query rs op dom left
    if r.2 then walkLeft start x r.1 left else (r.1, latest)

/-- `find_operational_contour_step_point`, operational_domain.hpp:1670-1703. -/
def findContour (dom : Dom) (start : SP) : Dom × SP := walkLeft rs op start (start.getD 0 0) dom start

/-! ## `trace_contour_curve` -/

/-- `next_clockwise_point`, operational_domain.hpp:844-856: rotate until the backtrack point is last. The bound is the length of the
neighbourhood; `none`: the backtrack point is not in it, and the loop does not end. -/
def nextClockwise (b : SP) : Nat → List SP → Option SP
  | 0, _ => none
  | k + 1, nb => if nb.getLast? = some b then nb.head? else nextClockwise b k (nb.tail ++ nb.head?.toList)

/-- `moore_neighborhood_2d` of a step point. -/
def moore2d (p : SP) : List SP := moore2 ((sizes rs).getD 0 0) ((sizes rs).getD 1 0) (p.getD 0 0) (p.getD 1 0)

/-- `next_clockwise_point` in the neighbourhood of `cur`, operational_domain.hpp:902-920. -/
def nextPoint (cur b : SP) : Option SP := nextClockwise b (moore2d rs cur).length (moore2d rs cur)

/-- The loop of the trace, operational_domain.hpp:902-920: the domain and the points of the contour. -/
def traceLoop (start : SP) : Nat → Dom → SP → SP → SP → List SP → Option (Dom × List SP)
  | 0, _, _, _, _, _ => none
  | fuel + 1, dom, cur, back, next, contour =>
    if next = start then some (dom, contour)
    else
      let r := query rs op dom next
      let cur' := if r.2 then next else cur
      let back' := if r.2 then cur else next
      match nextPoint rs cur' back' with
      | none => none
      | some n => traceLoop start fuel r.1 cur' back' n (if r.2 then contour ++ [next] else contour)

/-- The first point of the trace, operational_domain.hpp:886-900: backtrack point and next point. -/
def traceInit (start : SP) : Option (SP × SP) :=
  let x := start.getD 0 0
  let y := start.getD 1 0
  let back : SP := if x = 0 then start else [x - 1, y]
  match moore2d rs start with
  | [] => some (back, start)
  | m :: _ => if start = back then some (back, m) else (nextPoint rs start back).map (fun n => (back, n))

/-- The trace of one contour, operational_domain.hpp:880-920. -/
def trace (fuel : Nat) (dom : Dom) (start : SP) : Option (Dom × List SP) :=
  match traceInit rs start with
  | none => none
  | some (back, next) => traceLoop rs op start fuel dom start back next [start]

/-! ## `trace_boundary_surface` -/

/-- `std::ranges::any_of` with the simulation, operational_domain.hpp:967-969: stops at the first non-operational point. -/
def anyNonOp : Dom → List SP → Dom × Bool
  | dom, [] => (dom, false)
  | dom, m :: ms =>
    let r := query rs op dom m
    if r.2 then anyNonOp r.1 ms else (r.1, true)

/-- `neighborhood_and_boundary_status`, operational_domain.hpp:958-972. -/
def onBoundary (dom : Dom) (sp : SP) : Dom × Bool :=
  if (moore (sizes rs) sp).length < 3 ^ rs.length - 1 then (dom, true) else anyNonOp rs op dom (moore (sizes rs) sp)

/-- The variables of the search. -/
structure Bfs where
  dom : Dom
  queue : List SP
  visited : List SP
  contour : List SP

/-- The loop over the neighbours, operational_domain.hpp:1018-1029. -/
def expandB (b : Bfs) (m : SP) : Bfs :=
  if m ∈ b.visited then b
  else
    let r := query rs op b.dom m
    { b with dom := r.1, visited := b.visited ++ [m], queue := if r.2 then b.queue ++ [m] else b.queue }

/-- The breadth-first search over the boundary, operational_domain.hpp:1004-1030. -/
def bfs : Nat → Bfs → Option Bfs
  | 0, _ => none
  | fuel + 1, b =>
    match b.queue with
    | [] => some b
    | sp :: rest =>
      let r := onBoundary rs op b.dom sp
      let b := { b with dom := r.1, queue := rest }
      if r.2 then bfs fuel ((moore (sizes rs) sp).foldl (expandB rs op) { b with contour := b.contour ++ [sp] })
      else bfs fuel b

/-- The trace of one boundary, operational_domain.hpp:995-1030. -/
def boundary (fuel : Nat) (dom : Dom) (start : SP) : Option (Dom × List SP) :=
  (bfs rs op fuel ⟨dom, [start], [start], []⟩).map (fun b => (b.dom, b.contour))

/-! ## Inference -/

/-- The loop over the neighbours, operational_domain.hpp:1931-1953: inferred points and queue. -/
def inferNbr (dom : Dom) (q : List SP × List SP) (m : SP) : List SP × List SP :=
  if m ∈ q.1 then q
  else if contains dom (toPP rs m) = some false then q
  else (q.1 ++ [m], q.2 ++ [m])

/-- `infer_operational_status_in_enclosing_contour`, operational_domain.hpp:1919-1954. -/
def inferLoop (dom : Dom) (contour : List SP) : Nat → List SP → List SP → Option (List SP)
  | 0, _, _ => none
  | fuel + 1, inf, queue =>
    match queue with
    | [] => some inf
    | sp :: rest =>
      if sp ∈ contour then inferLoop dom contour fuel inf rest
      else
        let q := (vonNeumann (sizes rs) sp).foldl (inferNbr rs dom) (inf, rest)
        inferLoop dom contour fuel q.1 q.2

/-- `infer_operational_status_in_enclosing_contour`, operational_domain.hpp:1899-1955. -/
def infer (fuel : Nat) (dom : Dom) (contour inf : List SP) (start : SP) : Option (List SP) :=
  if start ∈ inf then some inf else inferLoop rs dom contour fuel (inf ++ [start]) [start]

/-! ## `contour_tracing` -/

/-- The body of the loop over the samples, operational_domain.hpp:859-923, 974-1033; `tr` is the trace of one contour. -/
def traceSample (tr : Dom → SP → Option (Dom × List SP)) (fuel : Nat) (st : Dom × List SP) (p : SP) : Option (Dom × List SP) :=
  if contains st.1 (toPP rs p) = some false then some st
  else if p ∈ st.2 then some st
  else
    let f := findContour rs op st.1 p
    match tr f.1 f.2 with
    | none => none
    | some (dom, contour) => (infer rs fuel dom contour st.2 p).map (fun inf => (dom, inf))

/-- `trace_contour_curve` and `trace_boundary_surface` after the simulation of the samples, operational_domain.hpp:834-928, 942-1038: the
domain and the inferred points. -/
def contourTracing (fuel : Nat) (dom : Dom) (ps : List SP) : Option (Dom × List SP) :=
  ps.foldlM (traceSample rs op (if rs.length = 2 then trace rs op fuel else boundary rs op fuel) fuel) (dom, [])

end

end Verif.OpDomain
