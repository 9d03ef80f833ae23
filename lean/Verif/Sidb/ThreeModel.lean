import Verif.Sidb.Model

/-!
# Model of three-state simulation in QuickExact

`algorithms/simulation/sidb/quickexact.hpp` (`three_state_simulation`) and the parts of
`technology/charge_distribution_surface.hpp` that it uses. The dependent SiDB is the first one.
-/
namespace Verif.Sidb

/-- `three_state_cells`, `sidb_order_without_three_state_cells` and `max_charge_index_sulayout`. -/
structure Three where
  three : List Nat
  two : List Nat
  maxSub : Nat

/-- The SiDBs other than the dependent one that could be positively charged,
`is_three_state_simulation_required`, charge_distribution_surface.hpp:1635-1657. -/
def candidates (E : Env) : List Nat :=
  (List.range E.n).filter fun i => decide (i ≠ 0) && !decide (-E.fromScratch (fun _ => .neg) i < E.posLB i)

/-- The other ones without the dependent SiDB, charge_distribution_surface.hpp:1659-1670. -/
def nonCandidates (E : Env) : List Nat :=
  (List.range E.n).filter fun i => decide (i ∉ candidates E) && decide (i ≠ 0)

/-- The decoding loops of `index_to_charge_distribution_for_quickexact_simulation`,
charge_distribution_surface.hpp:2341-2366, 2369-2402: the charge states assigned to the cells of the given list, which is
traversed from its end (here: reversed). `none` if the counter leaves the list. The dependent cell is not in either
list, so that the check in line 2383 never applies. -/
def decodeDigits (b : Nat) : Nat → List Nat → Option (List (Nat × Charge))
  | q, [] => if q = 0 then some [] else none
  | q, k :: ks => if q = 0 then some [] else (decodeDigits b (q / b) ks).map fun l => (k, .ofDigit (q % b)) :: l

/-- Assignment of the negative charge state without history, charge_distribution_surface.hpp:2325-2339. -/
def setNeg (l : List Nat) (c : Nat → Charge) : Nat → Charge := l.foldl (fun c k => setAt c k .neg) c

/-- `index_to_charge_distribution_for_quickexact_simulation`, charge_distribution_surface.hpp:2316-2403: charges and
history. -/
def decodeBoth (T : Three) (s : Cds) (sub : Nat) : Option ((Nat → Charge) × List (Nat × Int)) :=
  let c1 := if sub = 0 then setNeg T.three s.charge else s.charge
  let c2 := if s.index = 0 then setNeg T.two c1 else c1
  (decodeDigits 3 sub T.three.reverse).bind fun l1 =>
    (decodeDigits s.base s.index T.two.reverse).map fun l2 => applyChanges (l1 ++ l2) c2

/-- `update_after_charge_change(VARIABLE, KEEP_OLD_ENERGY_VALUE, …)`, charge_distribution_surface.hpp:1248-1263. The history is
only considered if there are three-state cells, whence the base of the parameters is three (line 2254). -/
def afterChange (E : Env) (T : Three) (consider : Bool) (s : Cds) (r : (Nat → Charge) × List (Nat × Int)) : Cds :=
  let s1 := { s with charge := r.1 }
  let s2 := if consider then updateHistory E s1 r.2 else updateNeglect E s1
  validityCheck E (updateDependent E (!T.three.isEmpty) 0 s2)

/-- `increase_charge_index_of_sub_layout_by_one(VARIABLE, KEEP_OLD_ENERGY_VALUE, CONSIDER)`,
charge_distribution_surface.hpp:2074-2094. -/
def subStep (E : Env) (T : Three) (s : Cds) (sub : Nat) : Option (Cds × Nat) :=
  if sub ≥ T.maxSub then some (s, sub)
  else (decodeBoth T s (sub + 1)).map fun r => (afterChange E T true s r, sub + 1)

/-- `reset_charge_index_sub_layout`, charge_distribution_surface.hpp:2123-2136: the potentials become stale here, since the
cells are reset without history. -/
def resetSub (E : Env) (T : Three) (s : Cds) : Option Cds := (decodeBoth T s 0).map fun r => afterChange E T true s r

/-- `increase_charge_index_by_one(VARIABLE, KEEP_OLD_ENERGY_VALUE)`, charge_distribution_surface.hpp:1495-1515. -/
def indexStep (E : Env) (T : Three) (s : Cds) (sub : Nat) : Option Cds :=
  if s.index ≥ s.maxIndex then some s
  else
    let s' := { s with index := s.index + 1 }
    (decodeBoth T s' sub).map fun r => afterChange E T false s' r

/-- The inner loop, quickexact.hpp:369-393: the surfaces that are checked for validity, in their order, and the last
surface (which is checked after the loop, 395). The first argument bounds the number of iterations. -/
def subLoop (E : Env) (T : Three) : Nat → Cds → Nat → Option (List Cds × Cds × Nat)
  | 0, s, sub => some ([], s, sub)
  | fuel + 1, s, sub =>
    if sub < T.maxSub then
      (subStep E T s sub).bind fun r => (subLoop E T fuel r.1 r.2).map fun q => (s :: q.1, q.2)
    else some ([], s, sub)

/-- The outer loop and what follows it, quickexact.hpp:367-455. -/
def outerLoop (E : Env) (T : Three) : Nat → Cds → Nat → Option (List Cds)
  | 0, _, _ => none
  | fuel + 1, s, sub =>
    if s.index < s.maxIndex then
      (subLoop E T (T.maxSub + 1) s sub).bind fun r =>
        (if T.maxSub ≠ 0 then (resetSub E T r.2.1).map fun s' => (s', 0) else some r.2).bind fun s2 =>
          (indexStep E T s2.1 s2.2).bind fun s3 =>
            (outerLoop E T fuel s3 s2.2).map fun rest => r.1 ++ r.2.1 :: rest
    else (subLoop E T (T.maxSub + 1) s sub).map fun r => r.1 ++ [r.2.1]

/-- The lists of cells, quickexact.hpp:355-364 with charge_distribution_surface.hpp:2252-2276. -/
def threeOf (R : Env) : Three := ⟨candidates R, nonCandidates R, if candidates R ≠ [] then 3 ^ (candidates R).length - 1 else 0⟩

/-- The surface before the loops; `base` is the base of the given parameters. -/
def threeStart (R : Env) (base : Nat) : Cds :=
  let b := if candidates R ≠ [] then 2 else base
  let m := if candidates R ≠ [] then 2 ^ (R.n - 1 - (candidates R).length) - 1 else base ^ (R.n - 1) - 1
  validityCheck R (updateDependent R (!(candidates R).isEmpty) 0 (updateNeglect R ⟨fun _ => .neg, fun _ => 0, false, 0, b, m⟩))

/-- `quickexact` if three-state simulation is conducted, quickexact.hpp:86-171, 348-461. -/
def quickexactThree (E : Env) (auto : Bool) (base : Nat) : Option (List (List Charge)) :=
  let s0 := initNegative { E with ext := fun _ => 0 } base
  let pre := negativeDetection E s0
  if E.n > 1 then
    if remaining E pre = [] then some [s0.charges E.n]
    else
      let R := reduced E pre
      let s := threeStart R base
      (outerLoop R (threeOf R) (s.maxIndex + 1) s 0).map fun l => (l.filter (·.valid)).map (embed E pre)
  else if E.n = 1 then
    let s1 := if auto then validityCheck E (updateNeglect E s0) else s0
    exgsLoop E 3 { s1 with base := 3, maxIndex := 3 ^ E.n - 1 }
  else some []

/-- `quickexact`, quickexact.hpp:86-171. -/
def quickexact (E : Env) (auto : Bool) (base : Nat) : Option (List (List Charge)) :=
  if (auto && threeStateRequired E) || (!auto && decide (base = 3)) then quickexactThree E auto base else quickexactTwo E auto base

end Verif.Sidb
