import Verif.Library.Sim7Lemmas

/-!
# C58: the gates of SIM7 connect the signals of their tiles

`setUp t u = some (.gate g)` says that `sim7_mol_library::set_up_gate` returns the gate `g` for a tile that looks like `t` when
the clocking is respected and like `u` when it is not; `used t u` is the one whose sides are used. The cells of `g` are indexed
by column and row; `port d` is one of the two cells in the middle of side `d`. `phase`, `passes` and `count` are in
`Sim7Lemmas.lean`.
-/
namespace Verif.Library.Sim7

open Verif.Cells

/-- An AND gate with inputs from north and west and an output to the east. -/
def andTile : Tile := ⟨4, 2, 1, fun d => d = .north ∨ d = .west, fun d => d = .east⟩

/-- A primary input with a fanout in the east. -/
def piTile : Tile := ⟨2, 0, 1, fun _ => false, fun d => d = .east⟩

/-- A fan-out from west to the three other sides. -/
def fanTile : Tile := ⟨2, 1, 3, fun d => d = .west, fun d => d ≠ .west⟩

/-- An inverter from north to south. -/
def invTile : Tile := ⟨3, 1, 1, fun d => d = .north, fun d => d = .south⟩

/-- `set_up_gate` returns a gate for these tiles, and no side is both an input and an output. -/
example : ∀ t ∈ [andTile, piTile, fanTile, invTile],
    (match setUp t t with | some (.gate _) => true | _ => false) = true ∧ ∀ d ∈ sides, ¬ (t.inc d = true ∧ t.out d = true) := by
  decide +kernel

/-- What the tables say about a tile. -/
theorem setUp_entry {t u : Tile} {g : Gate 10 10 MolType} (h : setUp t u = some (.gate g))
    (hdis : ∀ d, ¬ ((used t u).inc d = true ∧ (used t u).out d = true)) (hu : t.fn = u.fn) :
    ∃ e ∈ allMaps, g = e.rot.fn e.base ∧ (∀ d, (used t u).inc d = true → port d ∈ e.ports.inp) ∧
      (∀ d, (used t u).out d = true → port d ∈ e.ports.out) ∧
      (t.fn ≠ 3 → flows touching [e]) ∧ (t.fn = 3 → e ∈ inverterMap) := by
  have sub : ∀ {e map}, e ∈ map → flows touching map → flows touching [e] := by
    intro e map he hf e' he'
    rw [List.mem_singleton.1 he']
    exact hf e he
  have key : ∀ {map : List (Entry 10 MolType)}, map ⊆ allMaps → (t.fn ≠ 3 → flows touching map) → (t.fn = 3 → map ⊆ inverterMap) →
      (∃ e ∈ map, Fits (used t u) g e) →
      ∃ e ∈ allMaps, g = e.rot.fn e.base ∧ (∀ d, (used t u).inc d = true → port d ∈ e.ports.inp) ∧
        (∀ d, (used t u).out d = true → port d ∈ e.ports.out) ∧
        (t.fn ≠ 3 → flows touching [e]) ∧ (t.fn = 3 → e ∈ inverterMap) := by
    rintro map hm hf hi ⟨e, he, f⟩
    refine ⟨e, hm he, f.gate, fun d hd => ?_, fun d hd => ?_, fun hn => sub he (hf hn), fun hn => hi hn he⟩
    · rw [f.ports]; exact ports_inp hd
    · rw [f.ports]; exact ports_out hd
  have m1 : wireMap ⊆ allMaps := fun e he => by unfold allMaps; simp only [List.mem_append]; tauto
  have m2 : inverterMap ⊆ allMaps := fun e he => by unfold allMaps; simp only [List.mem_append]; tauto
  have m3 : conjunctionMap ⊆ allMaps := fun e he => by unfold allMaps; simp only [List.mem_append]; tauto
  have m4 : disjunctionMap ⊆ allMaps := fun e he => by unfold allMaps; simp only [List.mem_append]; tauto
  have m5 : majorityMap ⊆ allMaps := fun e he => by unfold allMaps; simp only [List.mem_append]; tauto
  have m6 : fanoutMap ⊆ allMaps := fun e he => by unfold allMaps; simp only [List.mem_append]; tauto
  have m7 : fanout13Map ⊆ allMaps := fun e he => by unfold allMaps; simp only [List.mem_append]; tauto
  have fan2 : t.isFanout = true → t.fn = 2 := by
    intro hf
    simp only [Tile.isFanout, Bool.and_eq_true, beq_iff_eq] at hf
    exact hf.1
  rcases setUp_cases h with ⟨hf, -, e, he, hi, hg⟩ | ⟨hf, c⟩ | ⟨hn, hf, c⟩ | ⟨hn, hf, c⟩ | ⟨hn, hf, c⟩ | ⟨hn, hf, c⟩ | ⟨hn, hf, c⟩
  · have h2 := fan2 hf
    have eu : used t u = u := by rw [used, if_pos hf]
    rw [eu] at hdis ⊢
    refine ⟨e, m7 he, hg, fun d hd => by rw [hi]; exact ports_inp hd, fun d hd => ?_,
      fun _ => sub he table_flows_fanout13, fun hn => by omega⟩
    have tab : ∀ e ∈ fanout13Map, ∀ p ∈ mids, p ∉ e.ports.inp → p ∈ e.ports.out := by decide +kernel
    refine tab e he _ (ports_mids (t := u) (.inr (ports_out hd))) ?_
    rw [hi]
    intro hp
    rcases inp_ports hp with ⟨d', e', hd'⟩ | ⟨hx, -⟩
    · have inj : ∀ d d', port d = port d' → d = d' := by intro d d'; cases d <;> cases d' <;> decide
      rw [← inj _ _ e'] at hd'
      exact hdis d ⟨hd', hd⟩
    · exact hx (hu ▸ h2)
  · have eu : used t u = u := by rw [used, if_pos hf]
    exact key m6 (fun _ => table_flows_fanout) (fun hn => absurd (fan2 hf) (by omega)) (by rw [eu]; exact c)
  · have eu : used t u = t := by rw [used, hf]; rfl
    exact key m1 (fun _ => table_flows_wire) (fun x => by omega) (by rw [eu]; exact c)
  · have eu : used t u = t := by rw [used, hf]; rfl
    exact key m2 (fun x => absurd hn x) (fun x => List.Subset.refl _) (by rw [eu]; exact c)
  · have eu : used t u = t := by rw [used, hf]; rfl
    exact key m3 (fun _ => table_flows_and) (fun x => by omega) (by rw [eu]; exact c)
  · have eu : used t u = t := by rw [used, hf]; rfl
    exact key m4 (fun _ => table_flows_or) (fun x => by omega) (by rw [eu]; exact c)
  · have eu : used t u = t := by rw [used, hf]; rfl
    exact key m5 (fun _ => table_flows_maj) (fun x => by omega) (by rw [eu]; exact c)

/-- C58: signals enter a gate in phase 1 and leave it in phase 4; a primary output has an output cell instead, and a primary
input an input cell. -/
theorem C58_sim7_contact {t u : Tile} {g : Gate 10 10 MolType} (h : setUp t u = some (.gate g)) (hu : t.fn = u.fn)
    (hdis : ∀ d, ¬ ((used t u).inc d = true ∧ (used t u).out d = true)) (d : Side) :
    ((used t u).inc d = true → g.cell (port d).1 (port d).2 = some .normal1 ∨
      (g.cell (port d).1 (port d).2 = some .output ∧ ∀ d', (used t u).out d' = false)) ∧
    ((used t u).out d = true → g.cell (port d).1 (port d).2 = some .normal4 ∨
      (g.cell (port d).1 (port d).2 = some .input ∧ ∀ d', (used t u).inc d' = false)) := by
  obtain ⟨e, he, hg, hi, ho, -⟩ := setUp_entry h hdis hu
  obtain ⟨h1, h2⟩ := table_contacts e he
  rw [← hg] at h1 h2
  constructor
  · intro hd
    have := h1 _ (hi d hd)
    split_ifs at this with hc
    · refine .inr ⟨this, fun d' => ?_⟩
      by_contra hd'
      have := ho d' (by simpa using hd')
      rw [hc.1] at this
      simp at this
    · exact .inl this
  · intro hd
    have := h2 _ (ho d hd)
    split_ifs at this with hc
    · refine .inr ⟨this, fun d' => ?_⟩
      by_contra hd'
      have := hi d' (by simpa using hd')
      rw [hc.1] at this
      simp at this
    · exact .inl this

theorem filled_of_cell {g : Gate 10 10 MolType} {p : Port} {v : MolType} (h : g.cell p.1 p.2 = some v) (hv : v ≠ .empty) :
    g.filled isEmpty p = true := by
  simp [Gate.filled, h, isEmpty, hv]

/-- C58: in a gate that is no inverter, a signal can pass from each input to each output by cells that touch each other and whose
phases never go back or skip one. -/
theorem C58_sim7_flow {t u : Tile} {g : Gate 10 10 MolType} (h : setUp t u = some (.gate g)) (hu : t.fn = u.fn)
    (hdis : ∀ d, ¬ ((used t u).inc d = true ∧ (used t u).out d = true)) (hn : t.fn ≠ 3) {d d' : Side}
    (hd : (used t u).inc d = true) (hd' : (used t u).out d' = true) :
    Linked (passes touching g) isEmpty g (port d) (port d') := by
  have hf : g.filled isEmpty (port d) = true := by
    rcases (C58_sim7_contact h hu hdis d).1 hd with e | ⟨e, -⟩
    · exact filled_of_cell e (by decide)
    · exact filled_of_cell e (by decide)
  obtain ⟨e, he, hg, hi, ho, fl, -⟩ := setUp_entry h hdis hu
  have := fl hn e (List.mem_singleton.2 rfl) _ (hi d hd) _ (ho d' hd')
  rw [← hg] at this
  exact linked_of_spread 11 hf this

/-- C58: in an inverter, a signal can pass from the input to the output by neighboring cells, again in the order of the phases,
but only diagonally. -/
theorem C58_sim7_inverter {t u : Tile} {g : Gate 10 10 MolType} (h : setUp t u = some (.gate g)) (hu : t.fn = u.fn)
    (hdis : ∀ d, ¬ ((used t u).inc d = true ∧ (used t u).out d = true)) (hn : t.fn = 3) {d d' : Side}
    (hd : (used t u).inc d = true) (hd' : (used t u).out d' = true) :
    Linked (passes near g) isEmpty g (port d) (port d') ∧ ¬ Linked touching isEmpty g (port d) (port d') := by
  have hf : g.filled isEmpty (port d) = true := by
    rcases (C58_sim7_contact h hu hdis d).1 hd with e | ⟨e, -⟩
    · exact filled_of_cell e (by decide)
    · exact filled_of_cell e (by decide)
  obtain ⟨e, he, hg, hi, ho, -, fl⟩ := setUp_entry h hdis hu
  have hin := fl hn
  have h1 := table_flows_inv e hin _ (hi d hd) _ (ho d' hd')
  obtain ⟨h2, h3, h4⟩ := table_inverter e hin _ (hi d hd) _ (ho d' hd')
  rw [← hg] at h1 h2 h3 h4
  exact ⟨linked_of_spread 11 hf h1, not_linked_of_closed _ h2 h3 h4⟩

/-- C58: AND gates have two cells with constant 0, OR gates have two cells with constant 1, and no other tile has constants. -/
theorem C58_sim7_constants {t u : Tile} {g : Gate 10 10 MolType} (h : setUp t u = some (.gate g)) :
    count .const0 g = (if t.fn = 4 then 2 else 0) ∧ count .const1 g = (if t.fn = 6 then 2 else 0) := by
  have key : ∀ {map s a b c d}, special map a b c d → (∃ e ∈ map, Fits s g e) → count .const0 g = a ∧ count .const1 g = b := by
    rintro map s a b c d hm ⟨e, he, f⟩
    rw [f.gate]
    exact ⟨(hm e he).1, (hm e he).2.1⟩
  have fan2 : t.isFanout = true → t.fn = 2 := by
    intro hf
    simp only [Tile.isFanout, Bool.and_eq_true, beq_iff_eq] at hf
    exact hf.1
  obtain ⟨t2, t3, t4, t5, t6, t7⟩ := table_special
  rcases setUp_cases h with ⟨hf, -, e, he, hi, hg⟩ | ⟨hf, c⟩ | ⟨hn, hf, e, he, f⟩ | ⟨hn, hf, c⟩ | ⟨hn, hf, c⟩ | ⟨hn, hf, c⟩ | ⟨hn, hf, c⟩
  · rw [fan2 hf, hg]; exact ⟨(t7 e he).1, (t7 e he).2.1⟩
  · rw [fan2 hf]; exact key t6 c
  · rw [hn, f.gate]; exact ⟨(table_special_wire e he).1, (table_special_wire e he).2.1⟩
  · rw [hn]; exact key t2 c
  · rw [hn]; exact key t3 c
  · rw [hn]; exact key t4 c
  · rw [hn]; exact key t5 c

/-- C58: a wire tile with no incoming signal has exactly two input cells and one with no outgoing signal exactly two output cells;
no other tile has any. -/
theorem C58_sim7_io {t u : Tile} {g : Gate 10 10 MolType} (h : setUp t u = some (.gate g)) :
    count .input g = (if t.fn = 2 ∧ t.isFanout = false ∧ ∀ d ∈ sides, t.inc d = false then 2 else 0) ∧
    count .output g = (if t.fn = 2 ∧ t.isFanout = false ∧ ∀ d ∈ sides, t.out d = false then 2 else 0) := by
  have key : ∀ {map s a b}, special map a b 0 0 → (∃ e ∈ map, Fits s g e) → (¬ (t.fn = 2 ∧ t.isFanout = false)) →
      count .input g = (if t.fn = 2 ∧ t.isFanout = false ∧ ∀ d ∈ sides, t.inc d = false then 2 else 0) ∧
      count .output g = (if t.fn = 2 ∧ t.isFanout = false ∧ ∀ d ∈ sides, t.out d = false then 2 else 0) := by
    rintro map s a b hm ⟨e, he, f⟩ hn
    rw [if_neg (fun x => hn ⟨x.1, x.2.1⟩), if_neg (fun x => hn ⟨x.1, x.2.1⟩), f.gate]
    exact (hm e he).2.2
  obtain ⟨t2, t3, t4, t5, t6, t7⟩ := table_special
  rcases setUp_cases h with ⟨hf, -, e, he, hi, hg⟩ | ⟨hf, c⟩ | ⟨hn, hf, e, he, f⟩ | ⟨hn, hf, c⟩ | ⟨hn, hf, c⟩ | ⟨hn, hf, c⟩ | ⟨hn, hf, c⟩
  · rw [if_neg (fun x => by rw [x.2.1] at hf; simp at hf), if_neg (fun x => by rw [x.2.1] at hf; simp at hf), hg]
    exact (t7 e he).2.2
  · exact key t6 c (fun x => by rw [x.2] at hf; simp at hf)
  · obtain ⟨-, -, i1, i2⟩ := table_special_wire e he
    rw [← f.gate, f.ports] at i1 i2
    have e1 : (ports t).inp = [] ↔ ∀ d ∈ sides, t.inc d = false := by
      constructor
      · intro hh d _
        by_contra hd
        have := ports_inp (t := t) (d := d) (by simpa using hd)
        rw [hh] at this
        simp at this
      · intro hh
        rw [List.eq_nil_iff_forall_not_mem]
        intro p hp
        rcases inp_ports hp with ⟨d, -, hd⟩ | ⟨hx, -⟩
        · rw [hh d (mem_sides d)] at hd; exact absurd hd (by decide)
        · exact hx hn
    have e2 : (ports t).out = [] ↔ ∀ d ∈ sides, t.out d = false := by
      constructor
      · intro hh d _
        by_contra hd
        have := ports_out (t := t) (d := d) (by simpa using hd)
        rw [hh] at this
        simp at this
      · intro hh
        rw [List.eq_nil_iff_forall_not_mem]
        intro p hp
        rcases out_ports hp with ⟨d, -, hd⟩ | ⟨hx, -⟩
        · rw [hh d (mem_sides d)] at hd; exact absurd hd (by decide)
        · exact hx hn
    rw [i1, i2]
    simp only [e1, e2, hn, hf, true_and, and_self]
  · exact key t2 c (by omega)
  · exact key t3 c (by omega)
  · exact key t4 c (by omega)
  · exact key t5 c (by omega)

end Verif.Library.Sim7
