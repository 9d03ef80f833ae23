import Verif.Library.Sim7
import Verif.Library.TileLemmas

/-!
# Lemmas on the tables of SIM7
-/
namespace Verif.Library.Sim7

open Verif.Cells

/-- A cell that is not there. -/
def isEmpty (v : MolType) : Bool := decide (v = .empty)

/-- The phase of a cell. Constants, inputs and outputs have no phase of their own. -/
def phase : MolType → Option Nat
  | .normal1 => some 1
  | .normal2 => some 2
  | .normal3 => some 3
  | .normal4 => some 4
  | _ => none

/-- A signal can pass from cell `p` to cell `q`: they are neighbors in the sense of `adj`, and `q` has the phase of `p` or the
next one. -/
def passes (adj : Port → Port → Bool) (g : Gate 10 10 MolType) (p q : Port) : Bool :=
  adj p q && match (g.cell p.1 p.2).bind phase, (g.cell q.1 q.2).bind phase with
    | some a, some b => a == b || b == a + 1
    | _, _ => false

/-- How many cells of the gate have the type `v`. -/
def count (v : MolType) (g : Gate 10 10 MolType) : Nat := ((grid 10).filter (fun p => g.cell p.1 p.2 == some v)).length

/-- Ports in the middle of a side. -/
def mids : List Port := sides.map port

theorem ports_inp {t : Tile} {d : Side} (h : t.inc d = true) : port d ∈ (ports t).inp := by
  have : port d ∈ portSet ((sides.filter t.inc).map port) :=
    (mem_portSet _ _).2 (List.mem_map.2 ⟨d, List.mem_filter.2 ⟨mem_sides d, h⟩, rfl⟩)
  unfold ports
  split_ifs <;> simp_all [mem_emplace]

theorem ports_out {t : Tile} {d : Side} (h : t.out d = true) : port d ∈ (ports t).out := by
  have : port d ∈ portSet ((sides.filter t.out).map port) :=
    (mem_portSet _ _).2 (List.mem_map.2 ⟨d, List.mem_filter.2 ⟨mem_sides d, h⟩, rfl⟩)
  unfold ports
  split_ifs <;> simp_all [mem_emplace]

theorem inp_ports {t : Tile} {p : Port} (h : p ∈ (ports t).inp) :
    (∃ d, p = port d ∧ t.inc d = true) ∨ (t.fn ≠ 2 ∧ t.fn ≠ 3 ∧ t.faninSize = 0 ∧ p = port .west) := by
  have base : p ∈ portSet ((sides.filter t.inc).map port) → ∃ d, p = port d ∧ t.inc d = true := by
    intro h
    obtain ⟨d, hd, e⟩ := List.mem_map.1 ((mem_portSet _ _).1 h)
    exact ⟨d, e.symm, (List.mem_filter.1 hd).2⟩
  unfold ports at h
  by_cases h1 : t.fn ≠ 2 ∧ t.fn ≠ 3
  · simp only [if_pos h1] at h
    by_cases h2 : t.faninSize = 0
    · simp only [if_pos h2, mem_emplace] at h
      rcases h with h | h
      · exact .inr ⟨h1.1, h1.2, h2, h⟩
      · exact .inl (base h)
    · simp only [if_neg h2] at h
      exact .inl (base h)
  · simp only [if_neg h1] at h
    exact .inl (base h)

theorem out_ports {t : Tile} {p : Port} (h : p ∈ (ports t).out) :
    (∃ d, p = port d ∧ t.out d = true) ∨ (t.fn ≠ 2 ∧ t.fn ≠ 3 ∧ t.fanoutSize = 0 ∧ p = port .east) := by
  have base : p ∈ portSet ((sides.filter t.out).map port) → ∃ d, p = port d ∧ t.out d = true := by
    intro h
    obtain ⟨d, hd, e⟩ := List.mem_map.1 ((mem_portSet _ _).1 h)
    exact ⟨d, e.symm, (List.mem_filter.1 hd).2⟩
  unfold ports at h
  by_cases h1 : t.fn ≠ 2 ∧ t.fn ≠ 3
  · simp only [if_pos h1] at h
    by_cases h2 : t.fanoutSize = 0
    · simp only [if_pos h2, mem_emplace] at h
      rcases h with h | h
      · exact .inr ⟨h1.1, h1.2, h2, h⟩
      · exact .inl (base h)
    · simp only [if_neg h2] at h
      exact .inl (base h)
  · simp only [if_neg h1] at h
    exact .inl (base h)

theorem ports_mids {t : Tile} {p : Port} (h : p ∈ (ports t).inp ∨ p ∈ (ports t).out) : p ∈ mids := by
  have key : ∀ d, port d ∈ mids := fun d => by cases d <;> decide
  rcases h with h | h
  · rcases inp_ports h with ⟨d, rfl, -⟩ | ⟨-, -, -, rfl⟩ <;> exact key _
  · rcases out_ports h with ⟨d, rfl, -⟩ | ⟨-, -, -, rfl⟩ <;> exact key _

/-- `fanout13` as a table. -/
def fanout13Map : List (Entry 10 MolType) :=
  [⟨[(4,0)], [(9,4), (5,9), (0,5)], .id, fanOut13⟩,
   ⟨[(9,4)], [(4,0), (5,9), (0,5)], .r90, fanOut13⟩,
   ⟨[(5,9)], [(4,0), (9,4), (0,5)], .r180, fanOut13⟩,
   ⟨[(0,5)], [(4,0), (9,4), (5,9)], .r270, fanOut13⟩]

/-- What `e` says about a tile. -/
structure Fits (t : Tile) (g : Gate 10 10 MolType) (e : Entry 10 MolType) : Prop where
  ports : e.ports = ports t
  gate : g = e.rot.fn e.base

/-- The tile whose ports are used: `set_up_gate` ignores the clocking for fan-outs. -/
def used (t u : Tile) : Tile := if t.isFanout then u else t

theorem fanout13_gate {t : Tile} {g : Gate 10 10 MolType} (h : fanout13 (ports t) = some (.gate g)) :
    ∃ e ∈ fanout13Map, e.ports.inp = (ports t).inp ∧ (ports t).out.length = 3 ∧ g = e.rot.fn e.base := by
  unfold fanout13 at h
  simp only [Rot.apply_eq, Option.map_some] at h
  by_cases h0 : (ports t).inp.length ≠ 1 ∨ (ports t).out.length ≠ 3
  · rw [if_pos h0] at h; simp at h
  rw [if_neg h0] at h
  have hl : (ports t).inp.length = 1 := by omega
  have ho : (ports t).out.length = 3 := by omega
  obtain ⟨x, hx⟩ := List.length_eq_one_iff.1 hl
  rw [hx] at h ⊢
  simp only [List.mem_singleton] at h
  split_ifs at h with h1 h2 h3 h4 <;> simp only [Option.some.injEq, Outcome.gate.injEq, reduceCtorEq] at h
  · exact ⟨_, List.getElem_mem (l := fanout13Map) (n := 0) (by decide), by rw [← h1]; rfl, ho, h.symm⟩
  · exact ⟨_, List.getElem_mem (l := fanout13Map) (n := 1) (by decide), by rw [← h2]; rfl, ho, h.symm⟩
  · exact ⟨_, List.getElem_mem (l := fanout13Map) (n := 2) (by decide), by rw [← h3]; rfl, ho, h.symm⟩
  · exact ⟨_, List.getElem_mem (l := fanout13Map) (n := 3) (by decide), by rw [← h4]; rfl, ho, h.symm⟩

theorem setUp_cases {t u : Tile} {g : Gate 10 10 MolType} (h : setUp t u = some (.gate g)) :
    (t.isFanout = true ∧ u.fanoutSize = 3 ∧ ∃ e ∈ fanout13Map, e.ports.inp = (ports u).inp ∧ g = e.rot.fn e.base) ∨
    (t.isFanout = true ∧ ∃ e ∈ fanoutMap, Fits u g e) ∨
    (t.fn = 2 ∧ t.isFanout = false ∧ ∃ e ∈ wireMap, Fits t g e) ∨
    (t.fn = 3 ∧ t.isFanout = false ∧ ∃ e ∈ inverterMap, Fits t g e) ∨
    (t.fn = 4 ∧ t.isFanout = false ∧ ∃ e ∈ conjunctionMap, Fits t g e) ∨
    (t.fn = 6 ∧ t.isFanout = false ∧ ∃ e ∈ disjunctionMap, Fits t g e) ∨
    (t.fn = 14 ∧ t.isFanout = false ∧ ∃ e ∈ majorityMap, Fits t g e) := by
  have key : ∀ {map t}, lookup .empty map (ports t) = some (.gate g) → ∃ e ∈ map, Fits t g e := by
    intro map t hl
    obtain ⟨e, he, hp, hg⟩ := lookup_gate hl
    exact ⟨e, he, ⟨hp, hg⟩⟩
  unfold setUp at h
  by_cases hf : t.isFanout = true
  · rw [if_pos hf] at h
    by_cases h3 : u.fanoutSize = 3
    · rw [if_pos h3] at h
      obtain ⟨e, he, h1, -, h2⟩ := fanout13_gate h
      exact .inl ⟨hf, h3, e, he, h1, h2⟩
    · rw [if_neg h3] at h
      exact .inr (.inl ⟨hf, key h⟩)
  rw [if_neg hf] at h
  have hf' : t.isFanout = false := by simpa using hf
  split_ifs at h with h3 h4 h5 h6 h7
  · exact .inr (.inr (.inl ⟨h3, hf', key h⟩))
  · exact .inr (.inr (.inr (.inl ⟨h4, hf', key h⟩)))
  · exact .inr (.inr (.inr (.inr (.inl ⟨h5, hf', key h⟩))))
  · exact .inr (.inr (.inr (.inr (.inr (.inl ⟨h6, hf', key h⟩)))))
  · exact .inr (.inr (.inr (.inr (.inr (.inr ⟨h7, hf', key h⟩)))))
  · simp at h

/-- All tables. -/
def allMaps : List (Entry 10 MolType) :=
  wireMap ++ inverterMap ++ conjunctionMap ++ disjunctionMap ++ majorityMap ++ fanoutMap ++ fanout13Map

theorem table_contacts : ∀ e ∈ allMaps,
    (∀ p ∈ e.ports.inp, (e.rot.fn e.base).cell p.1 p.2 = some (if e.ports.out = [] ∧ count .output (e.rot.fn e.base) ≠ 0 then .output else .normal1)) ∧
    (∀ p ∈ e.ports.out, (e.rot.fn e.base).cell p.1 p.2 = some (if e.ports.inp = [] ∧ count .input (e.rot.fn e.base) ≠ 0 then .input else .normal4)) := by
  decide +kernel

def flows (adj : Port → Port → Bool) (map : List (Entry 10 MolType)) : Prop :=
  ∀ e ∈ map, ∀ p ∈ e.ports.inp, ∀ q ∈ e.ports.out,
    q ∈ spread (passes adj (e.rot.fn e.base)) ((e.rot.fn e.base).cells isEmpty) 11 [p]

theorem table_flows_wire : flows touching wireMap := by unfold flows; decide +kernel
theorem table_flows_and : flows touching conjunctionMap := by unfold flows; decide +kernel
theorem table_flows_or : flows touching disjunctionMap := by unfold flows; decide +kernel
theorem table_flows_maj : flows touching majorityMap := by unfold flows; decide +kernel
theorem table_flows_fanout : flows touching fanoutMap := by unfold flows; decide +kernel
theorem table_flows_fanout13 : flows touching fanout13Map := by unfold flows; decide +kernel
theorem table_flows_inv : flows near inverterMap := by unfold flows; decide +kernel

/-- Inverters separate their input from their output. -/
theorem table_inverter : ∀ e ∈ inverterMap, ∀ p ∈ e.ports.inp, ∀ q ∈ e.ports.out,
    p ∈ spread touching ((e.rot.fn e.base).cells isEmpty) 11 [p] ∧
    (∀ a ∈ spread touching ((e.rot.fn e.base).cells isEmpty) 11 [p], ∀ b ∈ (e.rot.fn e.base).cells isEmpty,
      touching a b = true → b ∈ spread touching ((e.rot.fn e.base).cells isEmpty) 11 [p]) ∧
    q ∉ spread touching ((e.rot.fn e.base).cells isEmpty) 11 [p] := by
  decide +kernel

/-- Numbers of cells that are constants, inputs or outputs. -/
def special (map : List (Entry 10 MolType)) (a b c d : Nat) : Prop :=
  ∀ e ∈ map, count .const0 (e.rot.fn e.base) = a ∧ count .const1 (e.rot.fn e.base) = b ∧
    count .input (e.rot.fn e.base) = c ∧ count .output (e.rot.fn e.base) = d

theorem table_special : special inverterMap 0 0 0 0 ∧ special conjunctionMap 2 0 0 0 ∧ special disjunctionMap 0 2 0 0 ∧
    special majorityMap 0 0 0 0 ∧ special fanoutMap 0 0 0 0 ∧ special fanout13Map 0 0 0 0 := by
  unfold special; decide +kernel

theorem table_special_wire : ∀ e ∈ wireMap, count .const0 (e.rot.fn e.base) = 0 ∧ count .const1 (e.rot.fn e.base) = 0 ∧
    count .input (e.rot.fn e.base) = (if e.ports.inp = [] then 2 else 0) ∧
    count .output (e.rot.fn e.base) = (if e.ports.out = [] then 2 else 0) := by
  decide +kernel

end Verif.Library.Sim7
