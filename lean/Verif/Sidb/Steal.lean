import Verif.Sidb.Gss

/-!
# Model of the work stealing of *ClusterComplete*

`algorithms/simulation/sidb/clustercomplete.hpp`, 639-1157: ClusterComplete with several threads. Every critical section
of a queue is one step of a thread, with the computation on the private state of the thread before or after it. Threads
take turns in any order. A deque of layers is a list from back to front, so that thieves work at its head; a layer is a
list from front to back.
-/
namespace Verif.Sidb.Gss

open Verif.Sidb

/-- `worker_queue::mole`, clustercomplete.hpp:657-673, with the parent that was moved out (1072). -/
structure Frame where
  ix : Nat
  pst : Cluster × Multiset
  comp : Composition

/-- `worker_queue`, clustercomplete.hpp:652-698. -/
structure Queue where
  base : Clustering
  informants : List (Nat × Composition)
  layers : List (List Composition)
  count : Nat

/-- Where a thread is: before `get_from_this_queue` in `obtain_work` (910), before `unfold_composition` (1142), before
`get_from_this_queue` in `unfold_all_compositions` (1118, 1128), after `unfold_all_compositions` returned `false` (1077),
before `pop_last_layer` (1081-1084), at a queue to steal from (923), before `initialize_queue_after_stealing` (938), and
at its end (948). -/
inductive Pc where
  | idle
  | enter (y : Composition)
  | next
  | fail
  | pop
  | steal (i : Nat) (locked : Bool)
  | init (x : Clustering) (y : Composition)
  | done

/-- `worker`, clustercomplete.hpp:866-899, with its call stack: the calls of `add_physically_valid_charge_configurations`
that unfold, and for each whether it is at the first composition (1115), whose result is ignored. -/
structure Worker where
  index : Nat
  queue : Queue
  state : Clustering
  frames : List Frame
  firsts : List Bool
  pc : Pc

/-- The state that all threads see, with the results (240). -/
structure Sys where
  workers : List Worker
  results : List (List Charge)

/-! ## Clustering states -/

/-- `sidb_clustering_state{num_sidbs}`, sidb_cluster_hierarchy.hpp:521-524. -/
def Clustering.empty : Clustering := ⟨[], fun _ => ⟨0, 0⟩⟩

/-- `add_parent`, clustercomplete.hpp:507-518. -/
def addParent (s : State) (x : Clustering) (k : Nat) (q : Cluster × Multiset) : Clustering where
  parts := ((x.parts ++ [q]).set k q).set x.parts.length ((x.parts ++ [q]).getD k q)
  bounds := fun i => (x.bounds i).add (s.complete q.1 q.2 i)

/-- `remove_composition`, clustercomplete.hpp:544-554. -/
def removeParts (x : Clustering) (y : Composition) : Clustering where
  parts := x.parts.take (x.parts.length - y.parts.length)
  bounds := fun i => (x.bounds i).sub (y.bounds i)

/-! ## Queues -/

/-- `initialize_queue_after_stealing`, clustercomplete.hpp:711-723. -/
def Queue.afterStealing (x : Clustering) : Queue := ⟨x, [], [[]], 0⟩

/-- `pop_last_layer`, clustercomplete.hpp:741-753; `none` if there is no layer. -/
def Queue.popLayer (Q : Queue) : Option Queue :=
  if Q.informants.isEmpty then some Q
  else if Q.layers.isEmpty then none
  else some { Q with layers := Q.layers.dropLast, informants := Q.informants.dropLast }

/-- `add_to_queue`, clustercomplete.hpp:763-781. -/
def Queue.add (Q : Queue) (ys : List Composition) (inf : Nat × Composition) : Queue :=
  { Q with layers := Q.layers ++ [ys.tail.reverse], count := Q.count + (ys.length - 1), informants := Q.informants ++ [inf] }

/-- The result of `get_from_this_queue`: work, `true` or `false`. -/
inductive Got where
  | work (y : Composition)
  | more
  | nothing

/-- `get_from_this_queue`, clustercomplete.hpp:791-814; `none` if there is no layer. -/
def Queue.get (Q : Queue) : Option (Got × Queue) :=
  if Q.count = 0 then some (.nothing, Q)
  else match Q.layers.getLast? with
    | none => none
    | some [] => some (.more, Q)
    | some (y :: L) => some (.work y, { Q with layers := Q.layers.dropLast ++ [L], count := Q.count - 1 })

/-- The loop of `try_steal_from_this_queue`, clustercomplete.hpp:843-848, with `apply_informant`, 728-736; `none` if there
is no layer or no such parent. -/
def forward (s : State) : List (Nat × Composition) → List (List Composition) → Clustering →
    Option (List (Nat × Composition) × List (List Composition) × Clustering)
  | [], ls, x => some ([], ls, x)
  | _ :: _, [], _ => none
  | (k, y) :: infs, L :: ls, x =>
    if L.isEmpty then
      match (addParts x y).parts[k]? with
      | none => none
      | some q => forward s infs ls (takeOut s (addParts x y) k q)
    else some ((k, y) :: infs, L :: ls, x)

/-- `try_steal_from_this_queue` with the lock, clustercomplete.hpp:833-860: what is stolen, if anything, and the queue;
`none` if there is no layer or it is empty. -/
def Queue.steal (s : State) (Q : Queue) : Option (Option (Clustering × Composition) × Queue) :=
  if Q.count = 0 then some (none, Q)
  else match forward s Q.informants Q.layers Q.base with
    | none => none
    | some (infs, ls, x) => match ls with
      | [] => none
      | L :: ls => match L.getLast? with
        | none => none
        | some y => some (some (x, y), ⟨x, infs, L.dropLast :: ls, Q.count - 1⟩)

/-! ## Threads -/

/-- After `unfold_composition` returned `true` to its caller. -/
def Worker.returned (w : Worker) (frames : List Frame) : Pc := if frames.isEmpty then .idle else .next

/-- `unfold_composition`, clustercomplete.hpp:1142-1157, with `add_physically_valid_charge_configurations`, 1053-1076, and
`unfold_all_compositions`, 1107-1115, up to `add_to_queue`: the worker and the results it adds. -/
def Worker.enter (E : Env) (s : State) (w : Worker) (y : Composition) : Option (Worker × List (List Charge)) :=
  let x := addParts w.state y
  if !meetsCriterion E x then some ({ w with state := removeParts x y, pc := w.returned w.frames }, [])
  else if x.parts.length = E.n then
    some ({ w with state := removeParts x y, pc := w.returned w.frames },
      if configurationStable E (surface E x) then [(surface E x).charges E.n] else [])
  else
    match x.parts[largest x.parts]? with
    | none => none
    | some q =>
      let k := largest x.parts
      match compsOf s q with
      | [] => some ({ w with state := takeOut s x k q, frames := ⟨k, q, y⟩ :: w.frames, firsts := true :: w.firsts, pc := .pop }, [])
      | z :: zs =>
        some ({ w with
          queue := w.queue.add (z :: zs) (k, y), state := takeOut s x k q, frames := ⟨k, q, y⟩ :: w.frames,
          firsts := true :: w.firsts, pc := .enter z }, [])

/-- Lines 1118-1131 of clustercomplete.hpp. -/
def Worker.next (w : Worker) : Option Worker :=
  match w.queue.get with
  | none => none
  | some (.work y, Q) => some { w with queue := Q, firsts := false :: w.firsts.tail, pc := .enter y }
  | some (.more, Q) => some { w with queue := Q, pc := .pop }
  | some (.nothing, Q) => some { w with queue := Q, pc := .fail }

/-- `add_physically_valid_charge_configurations` and `unfold_composition` return `false`, clustercomplete.hpp:1075-1079,
1156, to line 1115, which ignores it, to line 1122, or to the loop of the thread, 191, 199. -/
def Worker.fail (w : Worker) : Worker :=
  match w.firsts.tail with
  | [] => { w with frames := [], firsts := [], pc := .idle }
  | true :: rest => { w with frames := w.frames.tail, firsts := true :: rest, pc := .next }
  | false :: rest => { w with frames := w.frames.tail, firsts := false :: rest, pc := .fail }

/-- Lines 1081-1086 and 1148-1153 of clustercomplete.hpp. -/
def Worker.pop (s : State) (w : Worker) : Option Worker :=
  match w.frames with
  | [] => none
  | f :: rest => w.queue.popLayer.map fun Q =>
    { w with
      queue := Q, state := removeParts (addParent s w.state f.ix f.pst) f.comp, frames := rest, firsts := w.firsts.tail,
      pc := w.returned rest }

/-- `obtain_work`, clustercomplete.hpp:908-917. -/
def Worker.idle (w : Worker) : Option Worker :=
  match w.queue.get with
  | none => none
  | some (.work y, Q) => some { w with queue := Q, pc := .enter y }
  | some (_, Q) => some { w with queue := Q, pc := .steal 0 false }

/-- One step of thread `t`; `busy` is whether `try_to_lock` (825) fails, which is possible whenever a queue has several
users and is allowed at any time here. `none` is undefined behaviour. The loop of `obtain_work`, 919-948, takes one step
for every queue. -/
def Sys.step (E : Env) (s : State) (t : Nat) (busy : Bool) (σ : Sys) : Option Sys :=
  match σ.workers[t]? with
  | none => some σ
  | some w =>
    match w.pc with
    | .idle => w.idle.map fun w' => { σ with workers := σ.workers.set t w' }
    | .enter y => (w.enter E s y).map fun r => ⟨σ.workers.set t r.1, σ.results ++ r.2⟩
    | .next => w.next.map fun w' => { σ with workers := σ.workers.set t w' }
    | .fail => some { σ with workers := σ.workers.set t w.fail }
    | .pop => (w.pop s).map fun w' => { σ with workers := σ.workers.set t w' }
    | .steal i locked =>
      match σ.workers[i]? with
      | none => some { σ with workers := σ.workers.set t { w with pc := if locked then .steal 0 false else .done } }
      | some v =>
        if i = w.index then some { σ with workers := σ.workers.set t { w with pc := .steal (i + 1) locked } }
        else if busy then some { σ with workers := σ.workers.set t { w with pc := .steal (i + 1) true } }
        else
          match v.queue.steal s with
          | none => none
          | some (none, _) => some { σ with workers := σ.workers.set t { w with pc := .steal (i + 1) locked } }
          | some (some (x, y), Q) =>
            some { σ with workers := (σ.workers.set i { v with queue := Q }).set t { w with state := x, pc := .init x y } }
    | .init x y => some { σ with workers := σ.workers.set t { w with queue := .afterStealing x, pc := .enter y } }
    | .done => some σ

/-- Steps in the order of a schedule. -/
def Sys.run (E : Env) (s : State) : List (Nat × Bool) → Sys → Option Sys
  | [], σ => some σ
  | (t, busy) :: rest, σ => (σ.step E s t busy).bind fun σ' => Sys.run E s rest σ'

/-! ## Start -/

/-- The loop of `initialize_worker_queues`, clustercomplete.hpp:993-998, for the remaining iterations, `i`, `start` and
`end`. -/
def sections (size k chunk : Nat) : Nat → Nat → Nat → Nat → List (Nat × Nat)
  | 0, _, _, _ => []
  | r + 1, i, b, e =>
    (b, e) :: sections size k chunk r (i + 1) (e + 1) (if i + 2 = k then size - 1 else e + 1 + chunk - 1)

/-- A worker, clustercomplete.hpp:893-899. -/
def Worker.new (i : Nat) (layers : List (List Composition)) (count : Nat) : Worker :=
  ⟨i, ⟨.empty, [], layers, count⟩, .empty, [], [], .idle⟩

/-- `initialize_worker_queues`, clustercomplete.hpp:980-1027, for the given number of threads and the work in any order. -/
def Sys.start (threads : Nat) (work : List Composition) : Sys where
  workers :=
    let k := min threads work.length
    let chunk := work.length / k
    let own := (sections work.length k chunk k 0 0 (chunk - 1)).zipIdx.map fun (r : (Nat × Nat) × Nat) =>
      let layer := ((work.drop r.1.1).take (r.1.2 + 1 - r.1.1)).reverse
      Worker.new r.2 [layer] layer.length
    own ++ (List.range (threads - k)).map fun i => Worker.new i [] 0
  results := []

/-- `extract_work_from_top_cluster`, clustercomplete.hpp:958-968, before it is shuffled. -/
def topWork (s : State) (top : Cluster) : List Composition := (allComps (s.space top)).map Prod.snd

end Verif.Sidb.Gss
