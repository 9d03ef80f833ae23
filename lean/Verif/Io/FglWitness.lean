import Verif.Io.FglClock

/-!
# Layouts that are read back, and layouts that are not
-/
namespace Verif.Fgl

open Verif.Layouts Verif.Clocking Verif.GateLevel Verif.TruthTables Verif.PhysicalDesign

/-! ## Checking an order

`g` says for each gate which output needs it first. Used in examples only. -/

def topoCheck (tp : Topo) (L : Lyt) (order : List Nat) (g : Nat → Nat) : Bool :=
  let outs := L.st.outputs.map L.st.getNode
  decide order.Nodup && order.all (fun n => decide (n ∉ L.st.inputs) && decide (2 ≤ n)) && outs.all (fun n => decide (n ∈ order)) &&
  (List.range order.length).all (fun i => ((L.reads tp (order.getD i 0)).map L.st.getNode).all fun a =>
    decide (a ≤ 1) || decide (a ∈ L.st.inputs) || decide (a ∈ order.take i)) &&
  (List.range order.length).all (fun i => decide (outs[g (order.getD i 0)]? = some (order.getD i 0)) ||
    (order.drop (i + 1)).any fun b => decide (g b = g (order.getD i 0)) && decide (order.getD i 0 ∈ (L.reads tp b).map L.st.getNode)) &&
  (List.range order.length).all (fun j => (List.range outs.length).all fun k => decide (outs[k]? ≠ some (order.getD j 0)) ||
    (order.take (j + 1)).all fun n => decide (g n ≤ k))

theorem topoView_of {tp : Topo} {L : Lyt} {order : List Nat} (g : Nat → Nat) (h : topoCheck tp L order g = true) : TopoView tp L order := by
  unfold topoCheck at h
  simp only [Bool.and_eq_true, decide_eq_true_eq, List.all_eq_true, List.mem_range, Bool.or_eq_true, List.any_eq_true] at h
  obtain ⟨⟨⟨⟨⟨h1, h2⟩, h3⟩, h4⟩, h5⟩, h6⟩ := h
  have hget : ∀ (i n : Nat), order[i]? = some n → i < order.length ∧ order.getD i 0 = n := by
    intro i n hi
    obtain ⟨ha, hb⟩ := List.getElem?_eq_some_iff.1 hi
    exact ⟨ha, by rw [List.getD_eq_getElem?_getD, hi]; rfl⟩
  -- every gate is needed by its output
  have hneed : ∀ d (i n : Nat), order.length - i = d → order[i]? = some n → ∃ p, L.st.outputs[g n]? = some p ∧ Needs tp L (L.st.getNode p) n := by
    intro d
    induction d using Nat.strongRecOn with
    | _ d ih =>
      intro i n hd hi
      obtain ⟨hl, e⟩ := hget i n hi
      have := h5 i hl
      rw [e] at this
      rcases this with ho | ⟨b, hb, hg, hr⟩
      · rw [List.getElem?_map, Option.map_eq_some_iff] at ho
        obtain ⟨p, hp, rfl⟩ := ho
        exact ⟨p, hp, Relation.ReflTransGen.refl⟩
      · obtain ⟨j, hj⟩ := List.mem_iff_getElem?.1 hb
        rw [List.getElem?_drop] at hj
        obtain ⟨hjl, -⟩ := hget _ _ hj
        obtain ⟨p, hp, hn⟩ := ih (order.length - (i + 1 + j)) (by omega) (i + 1 + j) b rfl hj
        refine ⟨p, hg ▸ hp, Relation.ReflTransGen.head ⟨(h2 b (List.mem_of_getElem? hj)).1, ?_⟩ hn⟩
        rw [List.mem_map] at hr
        exact hr
  have hbefore : ∀ (i n : Nat), order[i]? = some n → ∀ c ∈ L.reads tp n,
      L.st.getNode c ≤ 1 ∨ L.st.getNode c ∈ L.st.inputs ∨ ∃ j < i, order[j]? = some (L.st.getNode c) := by
    intro i n hi c hc
    obtain ⟨hl, e⟩ := hget i n hi
    rcases h4 i hl (L.st.getNode c) (List.mem_map_of_mem (by rw [e]; exact hc)) with (h | h) | h
    · exact Or.inl h
    · exact Or.inr (Or.inl h)
    · obtain ⟨j, hj⟩ := List.mem_iff_getElem?.1 h
      rw [List.getElem?_take] at hj
      split at hj
      · rename_i hlt
        exact Or.inr (Or.inr ⟨j, hlt, hj⟩)
      · cases hj
  refine ⟨h1, ?_, hbefore, ?_⟩
  · intro n
    constructor
    · intro hn
      obtain ⟨i, hi⟩ := List.mem_iff_getElem?.1 hn
      obtain ⟨p, hp, hd⟩ := hneed _ i n rfl hi
      exact ⟨(h2 n hn).1, (h2 n hn).2, p, List.mem_of_getElem? hp, hd⟩
    · rintro ⟨hi, h2n, p, hp, hd⟩
      have hclosed : n ∈ order ∨ n ∈ L.st.inputs ∨ n ≤ 1 := by
        refine Relation.ReflTransGen.head_induction_on hd (Or.inl (h3 _ (List.mem_map_of_mem hp))) ?_
        rintro a b ⟨hb, c, hc, rfl⟩ - ih
        rcases ih with ih | ih | ih
        · obtain ⟨i, hi⟩ := List.mem_iff_getElem?.1 ih
          rcases hbefore i b hi c hc with h | h | ⟨j, -, h⟩
          · exact Or.inr (Or.inr h)
          · exact Or.inr (Or.inl h)
          · exact Or.inl (List.mem_of_getElem? h)
        · exact absurd ih hb
        · unfold Lyt.reads State.fanins at hc
          rw [if_pos ih] at hc
          cases hc
      rcases hclosed with h | h | h
      · exact h
      · exact absurd h hi
      · omega
  · intro k p j hk hj i hij n hi
    obtain ⟨hl, e⟩ := hget j _ hj
    have hkl : k < (L.st.outputs.map L.st.getNode).length := by
      rw [List.length_map]
      exact (List.getElem?_eq_some_iff.1 hk).1
    rcases h6 j hl k hkl with h | h
    · rw [e, List.getElem?_map, hk] at h
      exact absurd rfl h
    · obtain ⟨p', hp', hd⟩ := hneed _ i n rfl hi
      refine ⟨g n, h n ?_, p', hp', hd⟩
      refine List.mem_iff_getElem?.2 ⟨i, ?_⟩
      rw [List.getElem?_take, if_pos (by omega)]
      exact hi

/-- Where a node is needed, nodes that nothing needed reads are not. -/
theorem needs_closed {tp : Topo} {L : Lyt} (S : List Nat) {b a : Nat} (hb : b ∈ S)
    (h : ∀ n ∈ S, ∀ c ∈ L.reads tp n, L.st.getNode c ∈ S) (hn : Needs tp L b a) : a ∈ S := by
  refine Relation.ReflTransGen.head_induction_on hn hb ?_
  rintro a b ⟨-, c, hc, rfl⟩ - ih
  exact h b ih c hc

/-! ## A layout that is read back

Two inputs, a gate with a function of its own, and two outputs, one of which reads a fanout. -/

namespace Demo

/-- A tile of the ground layer. -/
def at' (x y : Nat) : Coord := ⟨x, y, 0, false⟩

def dim : Dim := ⟨3, 2, 1⟩

def ops : List GateLevel.Op := [.createPi (at' 1 0), .createPi (at' 0 1), .createGate 16 [at' 1 0, at' 0 1] (at' 1 1), .createPo (at' 1 1) (at' 2 1),
  .createGate 3 [at' 1 1] (at' 1 2), .createPo (at' 1 2) (at' 2 2)]

def lyt : Lyt :=
  ⟨"demo".toList, dim, twoddwaveClocking .cart .four, run dim init ops, layoutCache ++ [⟨2, 0xa⟩], fun n => ['n', Nat.digitChar n]⟩

def order : List Nat := [4, 5, 6, 7]

theorem wf : WF lyt.st := WF.run dim ops WF.init ⟨trivial, trivial, trivial, trivial, trivial, trivial, trivial⟩

theorem topo : TopoView .cart lyt order := topoView_of (fun n => if n ≤ 5 then 0 else 1) (by decide +kernel)

theorem writable : Writable .cart lyt order := by
  have hin : lyt.st.inputs = [2, 3] := by decide +kernel
  have hout : lyt.st.outputs = [at' 2 1, at' 2 2] := by decide +kernel
  refine ⟨wf, ⟨_, rfl⟩, by decide +kernel, ?_, by decide +kernel, ?_, ?_⟩
  · rw [hin]
    intro n hn
    simp only [List.mem_cons, List.not_mem_nil, or_false] at hn
    rcases hn with rfl | rfl
    · exact ⟨⟨at' 1 0, rfl, by decide +kernel⟩, by decide +kernel, by decide +kernel⟩
    · exact ⟨⟨at' 0 1, rfl, by decide +kernel⟩, by decide +kernel, by decide +kernel⟩
  · rw [hout, hin]
    intro p hp
    simp only [List.mem_cons, List.not_mem_nil, or_false] at hp
    rcases hp with rfl | rfl
    · exact ⟨rfl, 5, by decide +kernel, by decide +kernel, by decide +kernel, by decide +kernel⟩
    · exact ⟨rfl, 7, by decide +kernel, by decide +kernel, by decide +kernel, by decide +kernel⟩
  · intro n hn
    simp only [order, List.mem_cons, List.not_mem_nil, or_false] at hn
    rcases hn with rfl | rfl | rfl | rfl
    · exact ⟨⟨at' 1 1, rfl, by decide +kernel⟩, by decide +kernel, ⟨2, 0xa⟩, by decide +kernel⟩
    · exact ⟨⟨at' 2 1, rfl, by decide +kernel⟩, by decide +kernel, ⟨1, 2⟩, by decide +kernel⟩
    · exact ⟨⟨at' 1 2, rfl, by decide +kernel⟩, by decide +kernel, ⟨1, 1⟩, by decide +kernel⟩
    · exact ⟨⟨at' 2 2, rfl, by decide +kernel⟩, by decide +kernel, ⟨1, 2⟩, by decide +kernel⟩

/-- The elements that are written. -/
example : (writeGates .cart lyt order).map (fun r => (String.ofList r.type, r.loc, r.incoming)) =
    [("PI", at' 1 0, []), ("PI", at' 0 1, []), ("a", at' 1 1, [at' 1 0, at' 0 1]), ("PO", at' 2 1, [at' 1 1]), ("INV", at' 1 2, [at' 1 1]),
      ("PO", at' 2 2, [at' 1 2])] := by decide +kernel

/-- It meets the hypotheses of `C71_roundtrip`. -/
example : lyt.cs.regular = true ∧ getClockingScheme .cart lyt.cs.name.toList = some lyt.cs ∧ blank lyt.title = false ∧
    (∀ t n, t.d = false → lyt.st.tileNode t = some n → n ∉ lyt.st.inputs → ∃ p ∈ lyt.st.outputs, Needs .cart lyt (lyt.st.getNode p) n) ∧
    (∀ (k k' : Nat) p p', k < k' → lyt.st.outputs[k]? = some p → lyt.st.outputs[k']? = some p' →
      ¬ Needs .cart lyt (lyt.st.getNode p) (lyt.st.getNode p')) := by
  have hin : lyt.st.inputs = [2, 3] := by decide +kernel
  have hout : lyt.st.outputs = [at' 2 1, at' 2 2] := by decide +kernel
  refine ⟨rfl, rfl, by decide +kernel, ?_, ?_⟩
  · intro t n htd htn hi
    have h2 := writable.two htd htn
    have hlt := wf.lt t n htn
    have hs : lyt.st.size = 8 := by decide +kernel
    rw [hin] at hi
    simp only [List.mem_cons, List.not_mem_nil, or_false, not_or] at hi
    have : n ∈ order := by
      simp only [order, List.mem_cons, List.not_mem_nil, or_false]
      omega
    exact ((topo.mem n).1 this).2.2
  · rw [hout]
    intro k k' p p' hk h1 h2 hn
    have hk' : k = 0 ∧ k' = 1 := by
      have := (List.getElem?_eq_some_iff.1 h2).1
      simp only [List.length_cons, List.length_nil] at this
      omega
    obtain ⟨rfl, rfl⟩ := hk'
    simp only [List.getElem?_cons_zero, List.getElem?_cons_succ, Option.some.injEq] at h1 h2
    subst h1 h2
    exact absurd (needs_closed [5, 4, 2, 3] (by decide +kernel) (by decide +kernel) hn) (by decide +kernel)

end Demo

/-! ## Layouts that are not read back -/

/-- Reading what was written, without sorting. Used in examples only. -/
def readBack (tp : Topo) (title : List Char) (L : Lyt) (order : List Nat) : Option Lyt :=
  match readClocking tp (write tp L order) with
  | none => none
  | some cs =>
    if (writeGates tp L order).all Rec.readable then
      placeAll (writeGates tp L order) ⟨if blank L.title then title else L.title, L.dim, cs, init, layoutCache, fun _ => []⟩
    else none

theorem readBack_eq (tp : Topo) (title : List Char) (L : Lyt) (order : List Nat) : read tp title (write tp L order) = readBack tp title L order := by
  unfold read readBack
  rw [if_neg (by simp [write])]
  cases readClocking tp (write tp L order) with
  | none => rfl
  | some cs =>
    show (if (writeGates tp L order).all Rec.readable then placeAll ((writeGates tp L order).mergeSort _) _ else none) = _
    rw [writeGates_sorted]
    rfl

/-- **C71** is false of the order of the outputs in general: here the first output reads the tile of the second one. -/
theorem C71_false_output_order : ∃ (L R : Lyt) (order : List Nat), Writable .cart L order ∧ TopoView .cart L order ∧
    read .cart [] (write .cart L order) = some R ∧ L.st.outputs = [⟨2, 0, 0, false⟩, ⟨1, 0, 0, false⟩] ∧
    R.st.outputs = [⟨1, 0, 0, false⟩, ⟨2, 0, 0, false⟩] := by
  let d : Dim := ⟨2, 0, 0⟩
  let a (x : Nat) : Coord := ⟨x, 0, 0, false⟩
  let ops : List GateLevel.Op := [.createPi (a 0), .createGate 2 [a 0] (a 1), .createPo (a 1) (a 2), .clear (a 1), .createPo (a 0) (a 1)]
  let L : Lyt := ⟨"L".toList, d, twoddwaveClocking .cart .four, run d init ops, layoutCache, fun n => ['n', Nat.digitChar n]⟩
  have T : TopoView .cart L [5, 4] := topoView_of (fun n => 0) (by decide +kernel)
  have W : Writable .cart L [5, 4] := by
    have hin : L.st.inputs = [2] := by decide +kernel
    have hout : L.st.outputs = [a 2, a 1] := by decide +kernel
    refine ⟨WF.run d ops WF.init ⟨trivial, trivial, trivial, trivial, trivial, trivial⟩, ⟨[], by simp [L]⟩, by decide +kernel, ?_, by decide +kernel, ?_, ?_⟩
    · rw [hin]
      intro n hn
      simp only [List.mem_cons, List.not_mem_nil, or_false] at hn
      subst hn
      exact ⟨⟨a 0, rfl, by decide +kernel⟩, by decide +kernel, by decide +kernel⟩
    · rw [hout, hin]
      intro p hp
      simp only [List.mem_cons, List.not_mem_nil, or_false] at hp
      rcases hp with rfl | rfl
      · exact ⟨rfl, 4, by decide +kernel, by decide +kernel, by decide +kernel, by decide +kernel⟩
      · exact ⟨rfl, 5, by decide +kernel, by decide +kernel, by decide +kernel, by decide +kernel⟩
    · intro n hn
      simp only [List.mem_cons, List.not_mem_nil, or_false] at hn
      rcases hn with rfl | rfl
      · exact ⟨⟨a 1, rfl, by decide +kernel⟩, by decide +kernel, ⟨1, 2⟩, by decide +kernel⟩
      · exact ⟨⟨a 2, rfl, by decide +kernel⟩, by decide +kernel, ⟨1, 2⟩, by decide +kernel⟩
  have key : (readBack .cart [] L [5, 4]).map (fun R => R.st.outputs) = some [a 1, a 2] := by decide +kernel
  rw [← readBack_eq] at key
  obtain ⟨R, hR, e⟩ := Option.map_eq_some_iff.1 key
  exact ⟨L, R, [5, 4], W, T, hR, by decide +kernel, e⟩

/-- **C71** is false of clock numbers above the ground layer: an open clocking whose crossing is clocked by hand loses the connections of the crossing. -/
theorem C71_false_crossing_clock : ∃ (L R : Lyt) (order : List Nat) (t : Coord), Writable .cart L order ∧ TopoView .cart L order ∧
    read .cart [] (write .cart L order) = some R ∧ R.cs.clock t ≠ L.cs.clock t ∧
    (L.reads .cart (L.st.getNode t)).length = 1 ∧ R.reads .cart (R.st.getNode t) = [] := by
  let d : Dim := ⟨2, 0, 1⟩
  let a (x z : Nat) : Coord := ⟨x, 0, z, false⟩
  let cs := ((openClocking .cart .four).overrideClockNumber (a 1 1) 1).overrideClockNumber (a 2 0) 2
  let ops : List GateLevel.Op := [.createPi (a 0 0), .createGate 2 [a 0 0] (a 1 1), .createPo (a 1 1) (a 2 0)]
  let L : Lyt := ⟨"L".toList, d, cs, run d init ops, layoutCache, fun n => ['n', Nat.digitChar n]⟩
  have T : TopoView .cart L [3, 4] := topoView_of (fun n => 0) (by decide +kernel)
  have W : Writable .cart L [3, 4] := by
    have hin : L.st.inputs = [2] := by decide +kernel
    have hout : L.st.outputs = [a 2 0] := by decide +kernel
    refine ⟨WF.run d ops WF.init ⟨trivial, trivial, trivial, trivial⟩, ⟨[], by simp [L]⟩, by decide +kernel, ?_, by decide +kernel, ?_, ?_⟩
    · rw [hin]
      intro n hn
      simp only [List.mem_cons, List.not_mem_nil, or_false] at hn
      subst hn
      exact ⟨⟨a 0 0, rfl, by decide +kernel⟩, by decide +kernel, by decide +kernel⟩
    · rw [hout, hin]
      intro p hp
      simp only [List.mem_cons, List.not_mem_nil, or_false] at hp
      subst hp
      exact ⟨rfl, 4, by decide +kernel, by decide +kernel, by decide +kernel, by decide +kernel⟩
    · intro n hn
      simp only [List.mem_cons, List.not_mem_nil, or_false] at hn
      rcases hn with rfl | rfl
      · exact ⟨⟨a 1 1, rfl, by decide +kernel⟩, by decide +kernel, ⟨1, 2⟩, by decide +kernel⟩
      · exact ⟨⟨a 2 0, rfl, by decide +kernel⟩, by decide +kernel, ⟨1, 2⟩, by decide +kernel⟩
  have key : (readBack .cart [] L [3, 4]).map (fun R => (R.cs.clock (a 1 1), R.reads .cart (R.st.getNode (a 1 1)))) = some (0, []) := by
    decide +kernel
  rw [← readBack_eq] at key
  obtain ⟨R, hR, e⟩ := Option.map_eq_some_iff.1 key
  rw [Prod.mk.injEq] at e
  exact ⟨L, R, [3, 4], a 1 1, W, T, hR, by rw [e.1]; decide +kernel, by decide +kernel, e.2⟩

/-- **C71** is false of open clockings with three phases: they are read back with four, and data no longer flows from the last phase to the first. -/
theorem C71_false_open3 : ∃ (L R : Lyt) (order : List Nat) (t : Coord), Writable .cart L order ∧ TopoView .cart L order ∧
    read .cart [] (write .cart L order) = some R ∧ R.cs.clock t = L.cs.clock t ∧ L.cs.numClocks = 3 ∧ R.cs.numClocks = 4 ∧
    (L.reads .cart (L.st.getNode t)).length = 1 ∧ R.reads .cart (R.st.getNode t) = [] := by
  let d : Dim := ⟨1, 0, 0⟩
  let a (x : Nat) : Coord := ⟨x, 0, 0, false⟩
  let cs := (openClocking .cart .three).overrideClockNumber (a 0) 2
  let ops : List GateLevel.Op := [.createPi (a 0), .createPo (a 0) (a 1)]
  let L : Lyt := ⟨"L".toList, d, cs, run d init ops, layoutCache, fun n => ['n', Nat.digitChar n]⟩
  have T : TopoView .cart L [3] := topoView_of (fun n => 0) (by decide +kernel)
  have W : Writable .cart L [3] := by
    have hin : L.st.inputs = [2] := by decide +kernel
    have hout : L.st.outputs = [a 1] := by decide +kernel
    refine ⟨WF.run d ops WF.init ⟨trivial, trivial, trivial⟩, ⟨[], by simp [L]⟩, by decide +kernel, ?_, by decide +kernel, ?_, ?_⟩
    · rw [hin]
      intro n hn
      simp only [List.mem_cons, List.not_mem_nil, or_false] at hn
      subst hn
      exact ⟨⟨a 0, rfl, by decide +kernel⟩, by decide +kernel, by decide +kernel⟩
    · rw [hout, hin]
      intro p hp
      simp only [List.mem_cons, List.not_mem_nil, or_false] at hp
      subst hp
      exact ⟨rfl, 3, by decide +kernel, by decide +kernel, by decide +kernel, by decide +kernel⟩
    · intro n hn
      simp only [List.mem_cons, List.not_mem_nil, or_false] at hn
      subst hn
      exact ⟨⟨a 1, rfl, by decide +kernel⟩, by decide +kernel, ⟨1, 2⟩, by decide +kernel⟩
  have key : (readBack .cart [] L [3]).map (fun R => (R.cs.clock (a 1), R.cs.numClocks, R.reads .cart (R.st.getNode (a 1)))) = some (0, 4, []) := by
    decide +kernel
  rw [← readBack_eq] at key
  obtain ⟨R, hR, e⟩ := Option.map_eq_some_iff.1 key
  rw [Prod.mk.injEq, Prod.mk.injEq] at e
  exact ⟨L, R, [3], a 1, W, T, hR, by rw [e.1]; decide +kernel, rfl, e.2.1, by decide +kernel, e.2.2⟩

/-- **C71** is false of gates that no output needs: they are dropped. -/
theorem C71_false_dangling : ∃ (L R : Lyt) (order : List Nat) (t : Coord), WF L.st ∧ TopoView .cart L order ∧
    read .cart [] (write .cart L order) = some R ∧ L.st.tileNode t ≠ none ∧ (L.reads .cart (L.st.getNode t)).length = 1 ∧ R.st.tileNode t = none := by
  let d : Dim := ⟨1, 1, 0⟩
  let a (x y : Nat) : Coord := ⟨x, y, 0, false⟩
  let ops : List GateLevel.Op := [.createPi (a 0 0), .createPo (a 0 0) (a 1 0), .createGate 3 [a 0 0] (a 0 1)]
  let L : Lyt := ⟨"L".toList, d, twoddwaveClocking .cart .four, run d init ops, layoutCache, fun n => ['n', Nat.digitChar n]⟩
  have key : (readBack .cart [] L [3]).map (fun R => R.st.tileNode (a 0 1)) = some none := by decide +kernel
  rw [← readBack_eq] at key
  obtain ⟨R, hR, e⟩ := Option.map_eq_some_iff.1 key
  exact ⟨L, R, [3], a 0 1, WF.run d ops WF.init ⟨trivial, trivial, trivial, trivial⟩, topoView_of (fun _ => 0) (by decide +kernel), hR, by decide +kernel,
    by decide +kernel, e⟩

/-- **C71** is false of inputs whose tile was cleared: they come back, on the tile at the origin. -/
theorem C71_false_cleared_input : ∃ (L R : Lyt) (order : List Nat), WF L.st ∧ TopoView .cart L order ∧ read .cart [] (write .cart L order) = some R ∧
    L.st.tileNode ⟨0, 0, 0, false⟩ = none ∧ R.st.tileNode ⟨0, 0, 0, false⟩ ≠ none := by
  let d : Dim := ⟨2, 1, 0⟩
  let a (x y : Nat) : Coord := ⟨x, y, 0, false⟩
  let ops : List GateLevel.Op := [.createPi (a 0 1), .createPi (a 1 0), .clear (a 0 1), .createPo (a 1 0) (a 2 0)]
  let L : Lyt := ⟨"L".toList, d, twoddwaveClocking .cart .four, run d init ops, layoutCache, fun n => ['n', Nat.digitChar n]⟩
  have key : (readBack .cart [] L [4]).map (fun R => R.st.tileNode (a 0 0)) = some (some 2) := by decide +kernel
  rw [← readBack_eq] at key
  obtain ⟨R, hR, e⟩ := Option.map_eq_some_iff.1 key
  exact ⟨L, R, [4], WF.run d ops WF.init ⟨trivial, trivial, trivial, trivial, trivial⟩, topoView_of (fun _ => 0) (by decide +kernel), hR,
    by decide +kernel, by rw [e]; decide⟩

/-- **C71** is false of gates with connections that data does not flow along: a conjunction of which only one is clocked is read back as the constant
zero of one variable. -/
theorem C71_false_unclocked : ∃ (L R : Lyt) (order : List Nat) (t : Coord), WF L.st ∧ TopoView .cart L order ∧
    read .cart [] (write .cart L order) = some R ∧ L.cache.lookup (L.st.nodes (L.st.getNode t)).fn = some createAnd ∧
    R.cache.lookup (R.st.nodes (R.st.getNode t)).fn = some ⟨1, 0⟩ := by
  let d : Dim := ⟨3, 0, 0⟩
  let a (x : Nat) : Coord := ⟨x, 0, 0, false⟩
  let ops : List GateLevel.Op := [.createPi (a 0), .createGate 4 [a 0, a 2] (a 1), .createPo (a 1) (a 2)]
  let L : Lyt := ⟨"L".toList, d, twoddwaveClocking .cart .four, run d init ops, layoutCache, fun n => ['n', Nat.digitChar n]⟩
  have key : (readBack .cart [] L [3, 4]).map (fun R => R.cache.lookup (R.st.nodes (R.st.getNode (a 1))).fn) = some (some ⟨1, 0⟩) := by
    decide +kernel
  rw [← readBack_eq] at key
  obtain ⟨R, hR, e⟩ := Option.map_eq_some_iff.1 key
  exact ⟨L, R, [3, 4], a 1, WF.run d ops WF.init ⟨trivial, trivial, trivial, trivial⟩, topoView_of (fun _ => 0) (by decide +kernel), hR,
    by decide +kernel, e⟩

/-- **C71** is false of outputs that are not clocked after what they read: the file is written but cannot be read. -/
theorem C71_false_unreadable : ∃ (L : Lyt) (order : List Nat), WF L.st ∧ TopoView .cart L order ∧ ∀ title, read .cart title (write .cart L order) = none := by
  let d : Dim := ⟨3, 0, 0⟩
  let a (x : Nat) : Coord := ⟨x, 0, 0, false⟩
  let ops : List GateLevel.Op := [.createPi (a 1), .createPo (a 1) (a 0)]
  let L : Lyt := ⟨"L".toList, d, twoddwaveClocking .cart .four, run d init ops, layoutCache, fun n => ['n', Nat.digitChar n]⟩
  have T : TopoView .cart L [3] := topoView_of (fun _ => 0) (by decide +kernel)
  refine ⟨L, [3], WF.run d ops WF.init ⟨trivial, trivial, trivial⟩, T, fun title => ?_⟩
  have hb : blank L.title = false := by decide +kernel
  have e : read .cart title (write .cart L [3]) = read .cart [] (write .cart L [3]) := by
    unfold read
    rw [show (write .cart L [3]).title = L.title from rfl, hb]
    rfl
  rw [e]
  have : (readBack .cart [] L [3]).isNone = true := by decide +kernel
  rw [← readBack_eq] at this
  simpa using this

end Verif.Fgl
