import Verif.Library.QcaOneLemmas

/-!
# C58: the gates of QCA ONE connect the signals of their tiles

`setUp t = some (.gate g)` says that `qca_one_library::set_up_gate` returns the gate `g` for the tile `t`. The cells of `g` are
indexed by column and row; `port d` is the cell in the middle of side `d`. `t.inc d` and `t.out d` say that a signal enters or
leaves the tile on side `d`. `border`, `count` and `cross` are in `QcaOneLemmas.lean`; `Gate.filled`, `touching`, `near` and
`Linked` are in `TileLemmas.lean`.
-/
namespace Verif.Library.QcaOne

open Verif.Cells

/-- An AND gate with inputs from north and west and an output to the east. -/
def andTile : Tile := ⟨4, 2, 1, fun d => d = .north ∨ d = .west, fun d => d = .east⟩

/-- A wire from west to south. -/
def bentTile : Tile := ⟨2, 1, 1, fun d => d = .west, fun d => d = .south⟩

/-- A primary input with a fanout in the east. -/
def piTile : Tile := ⟨2, 0, 1, fun _ => false, fun d => d = .east⟩

/-- An inverter from north to south. -/
def invTile : Tile := ⟨3, 1, 1, fun d => d = .north, fun d => d = .south⟩

/-- `set_up_gate` returns a gate for these tiles. -/
example : ∀ t ∈ [andTile, bentTile, piTile, invTile],
    (match setUp t with | some (.gate _) => true | _ => false) = true := by decide +kernel

/-- They also meet the hypotheses of `C58_qca_no_other_contact`. -/
example : (andTile.fn ≠ 2 → andTile.faninSize ≠ 0 ∧ andTile.fanoutSize ≠ 0 ∧ (∃ d, andTile.inc d = true) ∧
    ∃ d, andTile.out d = true) ∧ (andTile.fn = 14 ∨ (andTile.fn = 2 ∧ andTile.fanoutSize = 3) →
      ∀ d, andTile.inc d = true ∨ andTile.out d = true) :=
  ⟨fun _ => ⟨by decide, by decide, ⟨.north, by decide⟩, ⟨.east, by decide⟩⟩, fun h => absurd h (by decide)⟩

/-- C58: on each side on which a signal enters or leaves the tile, the gate has a cell in the middle of the border. -/
theorem C58_qca_contact {t : Tile} {g : Gate 5 5 QcaType} (h : setUp t = some (.gate g)) {d : Side}
    (hd : t.inc d = true ∨ t.out d = true) : g.filled isEmpty (port d) = true := by
  have hp : port d ∈ (ports t).inp ∨ port d ∈ (ports t).out := hd.imp ports_inp ports_out
  have key : ∀ {map}, portsFilled map → (∃ e ∈ map, Fits t g e) → g.filled isEmpty (port d) = true := by
    rintro map hm ⟨e, he, f⟩
    rw [f.gate]
    exact hm e he _ ((f.mem_iff _).2 hp)
  obtain ⟨t1, t2, t3, t4, t5⟩ := table_ports_filled
  rcases setUp_cases h with ⟨-, -, c⟩ | ⟨-, -, rfl⟩ | ⟨-, -, -, c⟩ | ⟨-, c⟩ | ⟨-, c⟩ | ⟨-, c⟩ | ⟨-, rfl⟩
  · exact key t5 c
  · exact (cross_filled _ (ports_mids hp)).2
  · exact key t1 c
  · exact key t2 c
  · exact key t3 c
  · exact key t4 c
  · exact (cross_filled _ (ports_mids hp)).1

/-- C58: a gate has no other cells on the border of its tile than the contacts of its signals and the constant of an AND or OR
gate. `hio`: gates other than wires have a fanin and a fanout, and these come from neighboring tiles. `hall`: majority gates and
fan-outs of degree three use all four sides. -/
theorem C58_qca_no_other_contact {t : Tile} {g : Gate 5 5 QcaType} (h : setUp t = some (.gate g))
    (hio : t.fn ≠ 2 → t.faninSize ≠ 0 ∧ t.fanoutSize ≠ 0 ∧ (∃ d, t.inc d = true) ∧ ∃ d, t.out d = true)
    (hall : t.fn = 14 ∨ (t.fn = 2 ∧ t.fanoutSize = 3) → ∀ d, t.inc d = true ∨ t.out d = true)
    {p : Port} (hb : border p) (hf : g.filled isEmpty p = true) :
    ∃ d, p = port d ∧ (t.inc d = true ∨ t.out d = true ∨ (t.fn = 4 ∧ g.cell p.1 p.2 = some .const0) ∨
      (t.fn = 6 ∧ g.cell p.1 p.2 = some .const1)) := by
  have side : p ∈ (ports t).inp ∨ p ∈ (ports t).out → ∃ d, p = port d ∧ (t.inc d = true ∨ t.out d = true) := by
    rintro (hp | hp)
    · rcases inp_ports hp with ⟨d, e, hd⟩ | ⟨h2, -, h0, -⟩
      · exact ⟨d, e, .inl hd⟩
      · exact absurd h0 (hio h2).1
    · rcases out_ports hp with ⟨d, e, hd⟩ | ⟨h2, -, h0, -⟩
      · exact ⟨d, e, .inr hd⟩
      · exact absurd h0 (hio h2).2.1
  have weak : (∃ d, p = port d ∧ (t.inc d = true ∨ t.out d = true)) →
      ∃ d, p = port d ∧ (t.inc d = true ∨ t.out d = true ∨ (t.fn = 4 ∧ g.cell p.1 p.2 = some .const0) ∨
        (t.fn = 6 ∧ g.cell p.1 p.2 = some .const1)) := by
    rintro ⟨d, e, hd⟩
    exact ⟨d, e, hd.elim .inl (fun x => .inr (.inl x))⟩
  have hg := filled_grid hf
  have four : (∀ d, t.inc d = true ∨ t.out d = true) → p ∈ mids → ∃ d, p = port d ∧ (t.inc d = true ∨ t.out d = true) := by
    intro ha hm
    obtain ⟨d, -, e⟩ := List.mem_map.1 hm
    exact ⟨d, e.symm, ha d⟩
  have key : ∀ {map}, onlyPorts map → (∃ e ∈ map, Fits t g e ∧ e.ports.inp ≠ [] ∧ e.ports.out ≠ []) →
      ∃ d, p = port d ∧ (t.inc d = true ∨ t.out d = true) := by
    rintro map hm ⟨e, he, f, n1, n2⟩
    rw [f.gate] at hf
    exact side ((f.mem_iff _).1 (hm e he f.mid n1 n2 p hg hb hf))
  have cr : ∀ {map v}, crossTable v map → (∃ e ∈ map, Fits t g e) →
      (p ∈ (ports t).inp ∨ p ∈ (ports t).out) ∨ ((∃ d, p = port d) ∧ g.cell p.1 p.2 = some v) := by
    rintro map v hm ⟨e, he, f⟩
    obtain ⟨a, b, o, c, hn, h1, h2, h3⟩ := hm.get he
    have hc := h3 p hg
    rw [← f.gate] at hc
    have hmid : p.1 = 2 ∨ p.2 = 2 := by
      by_contra hh
      rw [Gate.filled, hc] at hf
      have : (p.1, p.2) ≠ port c := by
        intro e'
        have : (port c).1 = 2 ∨ (port c).2 = 2 := by cases c <;> decide
        rw [← e'] at this
        exact hh this
      simp only [cross, if_neg this, if_neg hh] at hf
      exact absurd hf (by decide)
    have hm4 : p ∈ mids := by
      have : ∀ q ∈ grid 5, border q → q.1 = 2 ∨ q.2 = 2 → q ∈ mids := by decide +kernel
      exact this p hg hb hmid
    obtain ⟨d, -, hd⟩ := List.mem_map.1 hm4
    by_cases hdc : d = c
    · right
      refine ⟨⟨d, hd.symm⟩, ?_⟩
      rw [hc]
      subst hdc
      have : (p.1, p.2) = port d := hd.symm
      simp only [cross, if_pos this]
    · left
      rw [← f.mem_iff, List.mem_append, h1, h2, ← hd]
      have : ∀ a ∈ sides, ∀ b ∈ sides, ∀ o ∈ sides, ∀ c ∈ sides, ∀ d ∈ sides, [a, b, o, c].Nodup → d ≠ c →
          d = a ∨ d = b ∨ d = o := by decide +kernel
      rcases this a (mem_sides _) b (mem_sides _) o (mem_sides _) c (mem_sides _) d (mem_sides _) hn hdc with rfl | rfl | rfl <;> simp
  obtain ⟨w1, w2, w3⟩ := table_only_ports
  rcases setUp_cases h with ⟨-, -, e, he, f⟩ | ⟨h2, h3, rfl⟩ | ⟨-, -, -, e, he, f⟩ | ⟨h3, e, he, f⟩ | ⟨h4, c⟩ | ⟨h6, c⟩ | ⟨h14, rfl⟩
  · exact weak (key w3 ⟨e, he, f, fanout_ports e he⟩)
  · refine weak (four (hall (.inr ⟨h2, h3⟩)) ?_)
    have : ∀ q ∈ grid 5, border q → fanOut13.filled isEmpty q = true → q ∈ mids := by decide +kernel
    exact this p hg hb hf
  · rw [f.gate] at hf
    exact weak (side ((f.mem_iff _).1 (table_wire_only_ports e he f.mid p hg hb hf)))
  · obtain ⟨-, -, ⟨d1, hd1⟩, d2, hd2⟩ := hio (by omega)
    refine weak (key w2 ⟨e, he, f, ?_, ?_⟩)
    · rw [f.ports]; exact List.ne_nil_of_mem (ports_inp hd1)
    · rw [f.ports]; exact List.ne_nil_of_mem (ports_out hd2)
  · rcases cr table_cross.1 c with hp | ⟨⟨d, e⟩, hv⟩
    · exact weak (side hp)
    · exact ⟨d, e, .inr (.inr (.inl ⟨h4, hv⟩))⟩
  · rcases cr table_cross.2 c with hp | ⟨⟨d, e⟩, hv⟩
    · exact weak (side hp)
    · exact ⟨d, e, .inr (.inr (.inr ⟨h6, hv⟩))⟩
  · refine weak (four (hall (.inl h14)) ?_)
    have : ∀ q ∈ grid 5, border q → majority.filled isEmpty q = true → q ∈ mids := by decide +kernel
    exact this p hg hb hf

/-- C58: the contacts of a gate that is no inverter are connected by cells that touch each other. -/
theorem C58_qca_linked {t : Tile} {g : Gate 5 5 QcaType} (h : setUp t = some (.gate g)) (hn : t.fn ≠ 3) {d d' : Side}
    (hd : t.inc d = true ∨ t.out d = true) (hd' : t.inc d' = true ∨ t.out d' = true) :
    Linked touching isEmpty g (port d) (port d') := by
  have hc := C58_qca_contact h hd
  have hp : port d ∈ (ports t).inp ∨ port d ∈ (ports t).out := hd.imp ports_inp ports_out
  have hp' : port d' ∈ (ports t).inp ∨ port d' ∈ (ports t).out := hd'.imp ports_inp ports_out
  have key : ∀ {map}, portsLinked map → (∃ e ∈ map, Fits t g e) → Linked touching isEmpty g (port d) (port d') := by
    rintro map hm ⟨e, he, f⟩
    refine linked_of_spread 12 hc ?_
    rw [f.gate]
    exact hm e he _ ((f.mem_iff _).2 hp) _ ((f.mem_iff _).2 hp')
  obtain ⟨t1, t3, t4, t5⟩ := table_ports_linked
  rcases setUp_cases h with ⟨-, -, c⟩ | ⟨-, -, rfl⟩ | ⟨-, -, -, c⟩ | ⟨h3, c⟩ | ⟨-, c⟩ | ⟨-, c⟩ | ⟨-, rfl⟩
  · exact key t5 c
  · exact linked_of_spread 12 hc (cross_linked _ (ports_mids hp) _ (ports_mids hp')).2
  · exact key t1 c
  · exact absurd h3 hn
  · exact key t3 c
  · exact key t4 c
  · exact linked_of_spread 12 hc (cross_linked _ (ports_mids hp) _ (ports_mids hp')).1

/-- C58: the input and the output of an inverter are connected only diagonally, which is what inverts the signal. -/
theorem C58_qca_inverter {t : Tile} {g : Gate 5 5 QcaType} (h : setUp t = some (.gate g)) (hn : t.fn = 3) {d d' : Side}
    (hd : t.inc d = true) (hd' : t.out d' = true) :
    Linked near isEmpty g (port d) (port d') ∧ ¬ Linked touching isEmpty g (port d) (port d') := by
  have hc := C58_qca_contact h (.inl hd)
  rcases setUp_cases h with ⟨e, -⟩ | ⟨e, -⟩ | ⟨e, -⟩ | ⟨-, e, he, f⟩ | ⟨e, -⟩ | ⟨e, -⟩ | ⟨e, -⟩
  case inr.inr.inr.inl =>
    obtain ⟨h1, h2, h3, h4⟩ := table_inverter e he (port d) (by rw [f.ports]; exact ports_inp hd) (port d')
      (by rw [f.ports]; exact ports_out hd')
    rw [← f.gate] at h1 h2 h3 h4
    exact ⟨linked_of_spread 12 hc h1, not_linked_of_closed _ h2 h3 h4⟩
  all_goals omega

/-- C58: an AND gate is a cross of cells whose center is the majority of two inputs and of a constant 0 on the remaining
side. -/
theorem C58_qca_and {t : Tile} {g : Gate 5 5 QcaType} (h : setUp t = some (.gate g)) (hn : t.fn = 4)
    (hi : t.faninSize ≠ 0) (ho : t.fanoutSize ≠ 0) :
    ∃ a b o c : Side, [a, b, o, c].Nodup ∧ (∀ d, t.inc d = true ↔ d = a ∨ d = b) ∧ (∀ d, t.out d = true ↔ d = o) ∧
      ∀ x y, x < 5 → y < 5 → g.cell x y = some (cross .const0 c x y) := by
  rcases setUp_cases h with ⟨e, -⟩ | ⟨e, -⟩ | ⟨e, -⟩ | ⟨e, -⟩ | ⟨-, e, he, f⟩ | ⟨e, -⟩ | ⟨e, -⟩
  case inr.inr.inr.inr.inl =>
    obtain ⟨a, b, o, c, h1, h2, h3, h4⟩ := table_cross.1.get he
    have inj : ∀ d d', port d = port d' → d = d' := by intro d d'; cases d <;> cases d' <;> decide
    refine ⟨a, b, o, c, h1, fun d => ?_, fun d => ?_, fun x y hx hy => ?_⟩
    · have := h2 (port d)
      rw [f.ports] at this
      have e1 : port d ∈ (ports t).inp ↔ t.inc d = true := by
        refine ⟨fun hp => ?_, ports_inp⟩
        rcases inp_ports hp with ⟨d', e', hd'⟩ | ⟨-, -, h0, -⟩
        · rw [inj _ _ e']; exact hd'
        · exact absurd h0 hi
      rw [← e1, this]
      simp only [List.mem_cons, List.not_mem_nil, or_false]
      exact ⟨fun x => x.imp (inj _ _) (inj _ _), fun x => x.imp (congrArg port) (congrArg port)⟩
    · rw [f.ports] at h3
      have e1 : port d ∈ (ports t).out ↔ t.out d = true := by
        refine ⟨fun hp => ?_, ports_out⟩
        rcases out_ports hp with ⟨d', e', hd'⟩ | ⟨-, -, h0, -⟩
        · rw [inj _ _ e']; exact hd'
        · exact absurd h0 ho
      rw [← e1, h3, List.mem_singleton]
      exact ⟨inj _ _, congrArg port⟩
    · rw [f.gate]
      exact h4 (x, y) (mem_grid.2 ⟨hx, hy⟩)
  all_goals omega

/-- C58: an OR gate is a cross of cells whose center is the majority of two inputs and of a constant 1 on the remaining side. -/
theorem C58_qca_or {t : Tile} {g : Gate 5 5 QcaType} (h : setUp t = some (.gate g)) (hn : t.fn = 6)
    (hi : t.faninSize ≠ 0) (ho : t.fanoutSize ≠ 0) :
    ∃ a b o c : Side, [a, b, o, c].Nodup ∧ (∀ d, t.inc d = true ↔ d = a ∨ d = b) ∧ (∀ d, t.out d = true ↔ d = o) ∧
      ∀ x y, x < 5 → y < 5 → g.cell x y = some (cross .const1 c x y) := by
  rcases setUp_cases h with ⟨e, -⟩ | ⟨e, -⟩ | ⟨e, -⟩ | ⟨e, -⟩ | ⟨e, -⟩ | ⟨-, e, he, f⟩ | ⟨e, -⟩
  case inr.inr.inr.inr.inr.inl =>
    obtain ⟨a, b, o, c, h1, h2, h3, h4⟩ := table_cross.2.get he
    have inj : ∀ d d', port d = port d' → d = d' := by intro d d'; cases d <;> cases d' <;> decide
    refine ⟨a, b, o, c, h1, fun d => ?_, fun d => ?_, fun x y hx hy => ?_⟩
    · have := h2 (port d)
      rw [f.ports] at this
      have e1 : port d ∈ (ports t).inp ↔ t.inc d = true := by
        refine ⟨fun hp => ?_, ports_inp⟩
        rcases inp_ports hp with ⟨d', e', hd'⟩ | ⟨-, -, h0, -⟩
        · rw [inj _ _ e']; exact hd'
        · exact absurd h0 hi
      rw [← e1, this]
      simp only [List.mem_cons, List.not_mem_nil, or_false]
      exact ⟨fun x => x.imp (inj _ _) (inj _ _), fun x => x.imp (congrArg port) (congrArg port)⟩
    · rw [f.ports] at h3
      have e1 : port d ∈ (ports t).out ↔ t.out d = true := by
        refine ⟨fun hp => ?_, ports_out⟩
        rcases out_ports hp with ⟨d', e', hd'⟩ | ⟨-, -, h0, -⟩
        · rw [inj _ _ e']; exact hd'
        · exact absurd h0 ho
      rw [← e1, h3, List.mem_singleton]
      exact ⟨inj _ _, congrArg port⟩
    · rw [f.gate]
      exact h4 (x, y) (mem_grid.2 ⟨hx, hy⟩)
  all_goals omega

/-- C58: a wire tile with no incoming signal has exactly one input cell and one with no outgoing signal exactly one output cell;
no other tile has any. The cell is connected to all contacts of the tile. -/
theorem C58_qca_io {t : Tile} {g : Gate 5 5 QcaType} (h : setUp t = some (.gate g)) :
    count .input g = (if t.fn = 2 ∧ t.fanoutSize ≠ 2 ∧ t.fanoutSize ≠ 3 ∧ ∀ d ∈ sides, t.inc d = false then 1 else 0) ∧
    count .output g = (if t.fn = 2 ∧ t.fanoutSize ≠ 2 ∧ t.fanoutSize ≠ 3 ∧ ∀ d ∈ sides, t.out d = false then 1 else 0) ∧
    ∀ p, g.cell p.1 p.2 = some .input ∨ g.cell p.1 p.2 = some .output →
      ∀ d, t.inc d = true ∨ t.out d = true → Linked touching isEmpty g (port d) p := by
  have mem : ∀ {v : QcaType} {p : Port}, g.cell p.1 p.2 = some v → p ∈ grid 5 := by
    intro v p hp
    rw [mem_grid]
    by_contra hh
    rw [cell_none _ hh] at hp
    exact absurd hp (by simp)
  have none : count .input g = 0 ∧ count .output g = 0 → ∀ p : Port, ¬ (g.cell p.1 p.2 = some .input ∨ g.cell p.1 p.2 = some .output) := by
    rintro ⟨h1, h2⟩ p hp
    rcases hp with hp | hp
    · have := List.eq_nil_of_length_eq_zero h1
      have hh : p ∈ (grid 5).filter (fun p => g.cell p.1 p.2 == some .input) := List.mem_filter.2 ⟨mem hp, by simp [hp]⟩
      rw [this] at hh
      simp at hh
    · have := List.eq_nil_of_length_eq_zero h2
      have hh : p ∈ (grid 5).filter (fun p => g.cell p.1 p.2 == some .output) := List.mem_filter.2 ⟨mem hp, by simp [hp]⟩
      rw [this] at hh
      simp at hh
  have key : ∀ {map}, noIo map → (∃ e ∈ map, Fits t g e) → count .input g = 0 ∧ count .output g = 0 := by
    rintro map hm ⟨e, he, f⟩
    rw [f.gate]
    exact hm e he
  have fin : (¬ (t.fn = 2 ∧ t.fanoutSize ≠ 2 ∧ t.fanoutSize ≠ 3)) → count .input g = 0 ∧ count .output g = 0 →
      count .input g = (if t.fn = 2 ∧ t.fanoutSize ≠ 2 ∧ t.fanoutSize ≠ 3 ∧ ∀ d ∈ sides, t.inc d = false then 1 else 0) ∧
      count .output g = (if t.fn = 2 ∧ t.fanoutSize ≠ 2 ∧ t.fanoutSize ≠ 3 ∧ ∀ d ∈ sides, t.out d = false then 1 else 0) ∧
      ∀ p, g.cell p.1 p.2 = some .input ∨ g.cell p.1 p.2 = some .output →
        ∀ d, t.inc d = true ∨ t.out d = true → Linked touching isEmpty g (port d) p :=
    fun hne hz => ⟨by rw [hz.1, if_neg (fun x => hne ⟨x.1, x.2.1, x.2.2.1⟩)], by rw [hz.2, if_neg (fun x => hne ⟨x.1, x.2.1, x.2.2.1⟩)],
      fun p hp => absurd hp (none hz p)⟩
  obtain ⟨t2, t3, t4, t5⟩ := table_no_io
  rcases setUp_cases h with ⟨-, h2, c⟩ | ⟨-, h2, rfl⟩ | ⟨h1, h2, h3, e, he, f⟩ | ⟨h3, c⟩ | ⟨h3, c⟩ | ⟨h3, c⟩ | ⟨h3, rfl⟩
  · exact fin (by omega) (key t5 c)
  · exact fin (by omega) cross_no_io.2
  · obtain ⟨i1, i2, i3⟩ := table_io e he
    rw [← f.gate, f.ports] at i1 i2 i3
    have e1 : (ports t).inp = [] ↔ ∀ d ∈ sides, t.inc d = false := by
      constructor
      · intro hh d _
        by_contra hd
        have := ports_inp (t := t) (d := d) (by simpa using hd)
        rw [hh] at this
        simp at this
      · intro hh
        rw [List.eq_nil_iff_forall_not_mem]
        intro p hp
        rcases inp_ports hp with ⟨d, -, hd⟩ | ⟨hx, -⟩
        · rw [hh d (mem_sides d)] at hd; exact absurd hd (by decide)
        · exact hx h1
    have e2 : (ports t).out = [] ↔ ∀ d ∈ sides, t.out d = false := by
      constructor
      · intro hh d _
        by_contra hd
        have := ports_out (t := t) (d := d) (by simpa using hd)
        rw [hh] at this
        simp at this
      · intro hh
        rw [List.eq_nil_iff_forall_not_mem]
        intro p hp
        rcases out_ports hp with ⟨d, -, hd⟩ | ⟨hx, -⟩
        · rw [hh d (mem_sides d)] at hd; exact absurd hd (by decide)
        · exact hx h1
    refine ⟨?_, ?_, ?_⟩
    · rw [i1]; simp only [e1, h1, h2, h3, ne_eq, not_false_eq_true, true_and]
    · rw [i2]; simp only [e2, h1, h2, h3, ne_eq, not_false_eq_true, true_and]
    · intro p hp d hd
      have hm : p ∈ grid 5 := hp.elim mem mem
      exact linked_of_spread 12 (C58_qca_contact h hd)
        (i3 _ (List.mem_append.2 (hd.imp ports_inp ports_out)) p hm hp)
  · exact fin (by omega) (key t2 c)
  · exact fin (by omega) (key t3 c)
  · exact fin (by omega) (key t4 c)
  · exact fin (by omega) cross_no_io.1

/-- C58: AND gates have one constant 0, OR gates have one constant 1, and no other tile has constants. -/
theorem C58_qca_constants {t : Tile} {g : Gate 5 5 QcaType} (h : setUp t = some (.gate g)) :
    count .const0 g = (if t.fn = 4 then 1 else 0) ∧ count .const1 g = (if t.fn = 6 then 1 else 0) := by
  have key : ∀ {map a b}, constants map a b → (∃ e ∈ map, Fits t g e) → count .const0 g = a ∧ count .const1 g = b := by
    rintro map a b hm ⟨e, he, f⟩
    rw [f.gate]
    exact hm e he
  obtain ⟨t1, t2, t3, t4, t5⟩ := table_constants
  rcases setUp_cases h with ⟨e, -, c⟩ | ⟨e, -, rfl⟩ | ⟨e, -, -, c⟩ | ⟨e, c⟩ | ⟨e, c⟩ | ⟨e, c⟩ | ⟨e, rfl⟩ <;> rw [e]
  · exact key t3 c
  · exact cross_constants.2
  · exact key t1 c
  · exact key t2 c
  · exact key t4 c
  · exact key t5 c
  · exact cross_constants.1

/-- C58: `set_up_gate` is defined for every tile, and its type exception is thrown exactly for the functions the library does
not have. -/
theorem C58_qca_defined (t : Tile) : ∃ o, setUp t = some o ∧
    (o = .unsupportedType ↔ t.fn ∉ [2, 3, 4, 6, 14]) := by
  have key : ∀ (map : List (Entry 5 QcaType)) p, ∃ o, lookup .empty map p = some o ∧ o ≠ .unsupportedType := by
    intro map p
    unfold lookup
    split
    · exact ⟨_, rfl, by simp⟩
    · rw [Rot.apply_eq]
      exact ⟨_, rfl, by simp⟩
  unfold setUp
  simp only [Tile.isFanout, Bool.and_eq_true, beq_iff_eq, decide_eq_true_eq]
  split_ifs with h1 h2 h3 h4 h5 h6 h7
  · obtain ⟨o, e, hn⟩ := key fanoutMap (ports t)
    exact ⟨o, e, by simp [hn, h1.1.1]⟩
  · exact ⟨_, rfl, by simp [h2.1.1]⟩
  · obtain ⟨o, e, hn⟩ := key wireMap (ports t)
    exact ⟨o, e, by simp [hn, h3]⟩
  · obtain ⟨o, e, hn⟩ := key inverterMap (ports t)
    exact ⟨o, e, by simp [hn, h4]⟩
  · obtain ⟨o, e, hn⟩ := key conjunctionMap (ports t)
    exact ⟨o, e, by simp [hn, h5]⟩
  · obtain ⟨o, e, hn⟩ := key disjunctionMap (ports t)
    exact ⟨o, e, by simp [hn, h6]⟩
  · exact ⟨_, rfl, by simp [h7]⟩
  · exact ⟨_, rfl, by simp_all⟩

end Verif.Library.QcaOne
