import Verif.Library.QcaOne
import Verif.Library.TileLemmas

/-!
# Lemmas on the tables of QCA ONE

`setUp t = some (.gate g)` says that `qca_one_library::set_up_gate` returns the gate `g` for the tile `t`. The cells of `g` are
indexed by column and row; `port d` is the cell in the middle of side `d`.
-/
namespace Verif.Library.QcaOne

open Verif.Cells

/-- A cell that is not there. -/
def isEmpty (v : QcaType) : Bool := decide (v = .empty)

/-- On the border of the tile. -/
def border (p : Port) : Prop := p.1 < 5 ∧ p.2 < 5 ∧ (p.1 = 0 ∨ p.1 = 4 ∨ p.2 = 0 ∨ p.2 = 4)

instance (p : Port) : Decidable (border p) := by unfold border; infer_instance

/-- How many cells of the gate have the type `v`. -/
def count (v : QcaType) (g : Gate 5 5 QcaType) : Nat := ((grid 5).filter (fun p => g.cell p.1 p.2 == some v)).length

/-! ## Which gates `setUp` returns -/

/-- Ports in the middle of a side. -/
def mids : List Port := sides.map port

theorem ports_inp {t : Tile} {d : Side} (h : t.inc d = true) : port d ∈ (ports t).inp := by
  have : port d ∈ portSet ((sides.filter t.inc).map port) :=
    (mem_portSet _ _).2 (List.mem_map.2 ⟨d, List.mem_filter.2 ⟨mem_sides d, h⟩, rfl⟩)
  unfold ports
  split_ifs <;> simp_all [mem_emplace]

theorem ports_out {t : Tile} {d : Side} (h : t.out d = true) : port d ∈ (ports t).out := by
  have : port d ∈ portSet ((sides.filter t.out).map port) :=
    (mem_portSet _ _).2 (List.mem_map.2 ⟨d, List.mem_filter.2 ⟨mem_sides d, h⟩, rfl⟩)
  unfold ports
  split_ifs <;> simp_all [mem_emplace]

theorem inp_ports {t : Tile} {p : Port} (h : p ∈ (ports t).inp) :
    (∃ d, p = port d ∧ t.inc d = true) ∨ (t.fn ≠ 2 ∧ t.fn ≠ 3 ∧ t.faninSize = 0 ∧ p = port .west) := by
  have base : p ∈ portSet ((sides.filter t.inc).map port) → ∃ d, p = port d ∧ t.inc d = true := by
    intro h
    obtain ⟨d, hd, e⟩ := List.mem_map.1 ((mem_portSet _ _).1 h)
    exact ⟨d, e.symm, (List.mem_filter.1 hd).2⟩
  unfold ports at h
  by_cases h1 : t.fn ≠ 2 ∧ t.fn ≠ 3
  · simp only [if_pos h1] at h
    by_cases h2 : t.faninSize = 0
    · simp only [if_pos h2, mem_emplace] at h
      rcases h with h | h
      · exact .inr ⟨h1.1, h1.2, h2, h⟩
      · exact .inl (base h)
    · simp only [if_neg h2] at h
      exact .inl (base h)
  · simp only [if_neg h1] at h
    exact .inl (base h)

theorem out_ports {t : Tile} {p : Port} (h : p ∈ (ports t).out) :
    (∃ d, p = port d ∧ t.out d = true) ∨ (t.fn ≠ 2 ∧ t.fn ≠ 3 ∧ t.fanoutSize = 0 ∧ p = port .east) := by
  have base : p ∈ portSet ((sides.filter t.out).map port) → ∃ d, p = port d ∧ t.out d = true := by
    intro h
    obtain ⟨d, hd, e⟩ := List.mem_map.1 ((mem_portSet _ _).1 h)
    exact ⟨d, e.symm, (List.mem_filter.1 hd).2⟩
  unfold ports at h
  by_cases h1 : t.fn ≠ 2 ∧ t.fn ≠ 3
  · simp only [if_pos h1] at h
    by_cases h2 : t.fanoutSize = 0
    · simp only [if_pos h2, mem_emplace] at h
      rcases h with h | h
      · exact .inr ⟨h1.1, h1.2, h2, h⟩
      · exact .inl (base h)
    · simp only [if_neg h2] at h
      exact .inl (base h)
  · simp only [if_neg h1] at h
    exact .inl (base h)

theorem ports_mids {t : Tile} {p : Port} (h : p ∈ (ports t).inp ∨ p ∈ (ports t).out) : p ∈ mids := by
  have key : ∀ d, port d ∈ mids := fun d => by cases d <;> decide
  rcases h with h | h
  · rcases inp_ports h with ⟨d, rfl, -⟩ | ⟨-, -, -, rfl⟩ <;> exact key _
  · rcases out_ports h with ⟨d, rfl, -⟩ | ⟨-, -, -, rfl⟩ <;> exact key _

/-- An entry whose ports are in the middle of the sides. -/
def Entry.mid (e : Entry 5 QcaType) : Prop := ∀ p ∈ e.ports.inp ++ e.ports.out, p ∈ mids

instance (e : Entry 5 QcaType) : Decidable (Entry.mid e) := by unfold Entry.mid; infer_instance

/-- What `e` says about a tile. -/
structure Fits (t : Tile) (g : Gate 5 5 QcaType) (e : Entry 5 QcaType) : Prop where
  mid : Entry.mid e
  ports : e.ports = ports t
  gate : g = e.rot.fn e.base

theorem setUp_cases {t : Tile} {g : Gate 5 5 QcaType} (h : setUp t = some (.gate g)) :
    (t.fn = 2 ∧ t.fanoutSize = 2 ∧ ∃ e ∈ fanoutMap, Fits t g e) ∨
    (t.fn = 2 ∧ t.fanoutSize = 3 ∧ g = fanOut13) ∨
    (t.fn = 2 ∧ t.fanoutSize ≠ 2 ∧ t.fanoutSize ≠ 3 ∧ ∃ e ∈ wireMap, Fits t g e) ∨
    (t.fn = 3 ∧ ∃ e ∈ inverterMap, Fits t g e) ∨
    (t.fn = 4 ∧ ∃ e ∈ conjunctionMap, Fits t g e) ∨
    (t.fn = 6 ∧ ∃ e ∈ disjunctionMap, Fits t g e) ∨
    (t.fn = 14 ∧ g = majority) := by
  have key : ∀ {map}, lookup .empty map (ports t) = some (.gate g) → ∃ e ∈ map, Fits t g e := by
    intro map hl
    obtain ⟨e, he, hp, hg⟩ := lookup_gate hl
    refine ⟨e, he, ⟨fun p hp' => ?_, hp, hg⟩⟩
    rw [hp] at hp'
    exact ports_mids (List.mem_append.1 hp')
  unfold setUp at h
  simp only [Tile.isFanout, Bool.and_eq_true, beq_iff_eq, decide_eq_true_eq] at h
  split_ifs at h with h1 h2 h3 h4 h5 h6 h7
  · exact .inl ⟨h1.1.1, h1.2, key h⟩
  · simp only [Option.some.injEq, Outcome.gate.injEq] at h
    exact .inr (.inl ⟨h2.1.1, h2.2, h.symm⟩)
  · refine .inr (.inr (.inl ⟨h3, ?_, ?_, key h⟩))
    · intro e; exact h1 ⟨⟨h3, by omega⟩, e⟩
    · intro e; exact h2 ⟨⟨h3, by omega⟩, e⟩
  · exact .inr (.inr (.inr (.inl ⟨h4, key h⟩)))
  · exact .inr (.inr (.inr (.inr (.inl ⟨h5, key h⟩))))
  · exact .inr (.inr (.inr (.inr (.inr (.inl ⟨h6, key h⟩)))))
  · simp only [Option.some.injEq, Outcome.gate.injEq] at h
    exact .inr (.inr (.inr (.inr (.inr (.inr ⟨h7, h.symm⟩)))))
  · simp at h

theorem Fits.mem_iff {t : Tile} {g : Gate 5 5 QcaType} {e : Entry 5 QcaType} (f : Fits t g e) (p : Port) :
    p ∈ e.ports.inp ++ e.ports.out ↔ p ∈ (QcaOne.ports t).inp ∨ p ∈ (QcaOne.ports t).out := by
  rw [f.ports, List.mem_append]

/-! ## Checks on the tables -/

/-- Every port of every entry is a cell. -/
def portsFilled (map : List (Entry 5 QcaType)) : Prop :=
  ∀ e ∈ map, ∀ p ∈ e.ports.inp ++ e.ports.out, (e.rot.fn e.base).filled isEmpty p = true

theorem table_ports_filled : portsFilled wireMap ∧ portsFilled inverterMap ∧ portsFilled conjunctionMap ∧
    portsFilled disjunctionMap ∧ portsFilled fanoutMap := by
  unfold portsFilled; decide +kernel

theorem cross_filled : ∀ p ∈ mids, majority.filled isEmpty p = true ∧ fanOut13.filled isEmpty p = true := by
  decide +kernel

/-- All cells on the border are ports. -/
def onlyPorts (map : List (Entry 5 QcaType)) : Prop :=
  ∀ e ∈ map, Entry.mid e → e.ports.inp ≠ [] → e.ports.out ≠ [] → ∀ p ∈ grid 5, border p →
    (e.rot.fn e.base).filled isEmpty p = true → p ∈ e.ports.inp ++ e.ports.out

set_option synthInstance.maxSize 1000 in
instance (map : List (Entry 5 QcaType)) : Decidable (onlyPorts map) := by unfold onlyPorts; infer_instance

theorem table_only_ports : onlyPorts wireMap ∧ onlyPorts inverterMap ∧ onlyPorts fanoutMap := by decide +kernel

theorem table_wire_only_ports : ∀ e ∈ wireMap, Entry.mid e → ∀ p ∈ grid 5, border p →
    (e.rot.fn e.base).filled isEmpty p = true → p ∈ e.ports.inp ++ e.ports.out := by
  decide +kernel

theorem fanout_ports : ∀ e ∈ fanoutMap, e.ports.inp ≠ [] ∧ e.ports.out ≠ [] := by decide +kernel

/-- A cross of cells with a constant on side `c`. -/
def cross (v : QcaType) (c : Side) (x y : Nat) : QcaType :=
  if (x, y) = port c then v else if x = 2 ∨ y = 2 then .normal else .empty

/-- Two input ports, one output port and a constant on the remaining side of a cross. -/
def crossEntry (v : QcaType) (e : Entry 5 QcaType) (a b o c : Side) : Prop :=
  [a, b, o, c].Nodup ∧ (∀ p, p ∈ e.ports.inp ↔ p ∈ [port a, port b]) ∧ e.ports.out = [port o] ∧
    ∀ p ∈ grid 5, (e.rot.fn e.base).cell p.1 p.2 = some (cross v c p.1 p.2)

/-- `crossEntry`, in decidable form. -/
def crossTable (v : QcaType) (map : List (Entry 5 QcaType)) : Prop :=
  ∀ e ∈ map, ∃ a ∈ sides, ∃ b ∈ sides, ∃ o ∈ sides, ∃ c ∈ sides, [a, b, o, c].Nodup ∧
    ((∀ p ∈ e.ports.inp, p ∈ [port a, port b]) ∧ ∀ p ∈ [port a, port b], p ∈ e.ports.inp) ∧ e.ports.out = [port o] ∧
    ∀ p ∈ grid 5, (e.rot.fn e.base).cell p.1 p.2 = some (cross v c p.1 p.2)

set_option synthInstance.maxSize 1000 in
instance (v : QcaType) (map : List (Entry 5 QcaType)) : Decidable (crossTable v map) := by unfold crossTable; infer_instance

theorem table_cross : crossTable .const0 conjunctionMap ∧ crossTable .const1 disjunctionMap := by decide +kernel

theorem crossTable.get {v : QcaType} {map : List (Entry 5 QcaType)} (h : crossTable v map) {e : Entry 5 QcaType} (he : e ∈ map) :
    ∃ a b o c, crossEntry v e a b o c := by
  obtain ⟨a, -, b, -, o, -, c, -, h1, h2, h3, h4⟩ := h e he
  exact ⟨a, b, o, c, h1, fun p => ⟨h2.1 p, h2.2 p⟩, h3, h4⟩

/-- All ports are connected by cells. -/
def portsLinked (map : List (Entry 5 QcaType)) : Prop :=
  ∀ e ∈ map, ∀ p ∈ e.ports.inp ++ e.ports.out, ∀ q ∈ e.ports.inp ++ e.ports.out,
    q ∈ spread touching ((e.rot.fn e.base).cells isEmpty) 12 [p]

theorem table_ports_linked : portsLinked wireMap ∧ portsLinked conjunctionMap ∧ portsLinked disjunctionMap ∧
    portsLinked fanoutMap := by
  unfold portsLinked; decide +kernel

theorem cross_linked : ∀ p ∈ mids, ∀ q ∈ mids, q ∈ spread touching (majority.cells isEmpty) 12 [p] ∧
    q ∈ spread touching (fanOut13.cells isEmpty) 12 [p] := by
  decide +kernel

/-- Inverters separate their input from their output. -/
theorem table_inverter : ∀ e ∈ inverterMap, ∀ p ∈ e.ports.inp, ∀ q ∈ e.ports.out,
    q ∈ spread near ((e.rot.fn e.base).cells isEmpty) 12 [p] ∧
    p ∈ spread touching ((e.rot.fn e.base).cells isEmpty) 12 [p] ∧
    (∀ a ∈ spread touching ((e.rot.fn e.base).cells isEmpty) 12 [p], ∀ b ∈ (e.rot.fn e.base).cells isEmpty,
      touching a b = true → b ∈ spread touching ((e.rot.fn e.base).cells isEmpty) 12 [p]) ∧
    q ∉ spread touching ((e.rot.fn e.base).cells isEmpty) 12 [p] := by
  decide +kernel

/-- Inputs and outputs of wire tiles. -/
theorem table_io : ∀ e ∈ wireMap, count .input (e.rot.fn e.base) = (if e.ports.inp = [] then 1 else 0) ∧
    count .output (e.rot.fn e.base) = (if e.ports.out = [] then 1 else 0) ∧
    ∀ p ∈ e.ports.inp ++ e.ports.out, ∀ q ∈ grid 5,
      ((e.rot.fn e.base).cell q.1 q.2 = some .input ∨ (e.rot.fn e.base).cell q.1 q.2 = some .output) →
        q ∈ spread touching ((e.rot.fn e.base).cells isEmpty) 12 [p] := by
  decide +kernel

def noIo (map : List (Entry 5 QcaType)) : Prop :=
  ∀ e ∈ map, count .input (e.rot.fn e.base) = 0 ∧ count .output (e.rot.fn e.base) = 0

theorem table_no_io : noIo inverterMap ∧ noIo conjunctionMap ∧ noIo disjunctionMap ∧ noIo fanoutMap := by
  unfold noIo; decide +kernel

theorem cross_no_io : (count .input majority = 0 ∧ count .output majority = 0) ∧
    (count .input fanOut13 = 0 ∧ count .output fanOut13 = 0) := by
  decide +kernel

def constants (map : List (Entry 5 QcaType)) (a b : Nat) : Prop :=
  ∀ e ∈ map, count .const0 (e.rot.fn e.base) = a ∧ count .const1 (e.rot.fn e.base) = b

theorem table_constants : constants wireMap 0 0 ∧ constants inverterMap 0 0 ∧ constants fanoutMap 0 0 ∧
    constants conjunctionMap 1 0 ∧ constants disjunctionMap 0 1 := by
  unfold constants; decide +kernel

theorem cross_constants : (count .const0 majority = 0 ∧ count .const1 majority = 0) ∧
    (count .const0 fanOut13 = 0 ∧ count .const1 fanOut13 = 0) := by
  decide +kernel

end Verif.Library.QcaOne
