import Verif.Library.Bestagon
import Mathlib.Tactic.SplitIfs
import Mathlib.Tactic.Tauto

/-!
# C58: the gates of the Bestagon library connect the signals of their tiles

`setUp t = .gate g` says that `sidb_bestagon_library::set_up_gate` returns the gate `g` for the tile `t`.
-/
namespace Verif.Library.Bestagon

/-! ## Specification -/

/-- The sides on which signals enter or leave a tile. -/
inductive Side | nw | ne | sw | se
  deriving DecidableEq

/-- The last three dots of a wire that ends at a side, from the border of the tile inwards. Together with the dots of the
neighboring tile, they form a wire of pairs of dots; see `C58_bestagon_wire_continues`. -/
def pins : Side → List (Nat × Nat)
  | .nw => [(16, 6), (18, 8), (22, 10)]
  | .ne => [(42, 6), (40, 8), (36, 10)]
  | .sw => [(16, 38), (18, 36), (22, 34)]
  | .se => [(42, 38), (40, 36), (36, 34)]

/-- A signal enters or leaves on side `d`. -/
def Sig.at (s : Sig) : Side → Bool
  | .nw => s.incNw
  | .ne => s.incNe
  | .sw => s.outSw
  | .se => s.outSe

def Ports.at (p : Ports) : Side → Bool
  | .nw => p.nw
  | .ne => p.ne
  | .sw => p.sw
  | .se => p.se

def allSides : List Side := [.nw, .ne, .sw, .se]

/-- The mirror image of a gate: columns 0 to 58 are swapped; column 59 stays empty. -/
def mirror (g : Dots) : Dots := g.map (fun p => (58 - p.1, p.2))

/-! ## Tables -/

theorem mem_allSides (d : Side) : d ∈ allSides := by cases d <;> decide

theorem ports_at {s : Sig} {d : Side} (h : s.at d = true) : (ports s).at d = true := by
  unfold ports
  cases d <;> split_ifs <;> simp_all [Sig.at, Ports.at]

theorem at_ports {s : Sig} {d : Side} (h : (ports s).at d = true) : s.at d = true ∨ s.noInc = true ∨ s.noOut = true := by
  unfold ports at h
  cases d <;> split_ifs at h <;> simp [Sig.at, Ports.at] at h ⊢ <;> tauto

theorem lookup_gate {K : Type} [DecidableEq K] {map : List (K × Dots)} {p : K} {g : Dots} (h : lookup map p = .gate g) :
    (p, g) ∈ map := by
  unfold lookup at h
  split at h
  · simp at h
  · rename_i e he
    have h1 := List.mem_of_find?_eq_some he
    have h2 := List.find?_some he
    simp only [Outcome.gate.injEq] at h
    simp only [decide_eq_true_eq] at h2
    rw [← h, ← h2]
    exact h1

/-- All tables with one list of ports. -/
def singleMaps : List (Nat × List (Ports × Dots)) :=
  [(2, fanoutMap), (2, wireMap), (3, inverterMap), (4, conjunctionMap), (6, disjunctionMap), (5, negatedConjunctionMap),
   (7, negatedDisjunctionMap), (12, exclusiveDisjunctionMap), (13, negatedExclusiveDisjunctionMap)]

theorem setUp_cases {t : Tile} {g : Dots} (h : setUp t = .gate g) :
    (∃ m ∈ singleMaps, m.1 = t.sig.fn ∧ (ports t.sig, g) ∈ m.2 ∧
      (t.sig.fn = 2 → t.fanoutSize = 2 ∨ (t.ground = true ∧ t.above = none))) ∨
    (t.sig.fn = 2 ∧ t.fanoutSize ≠ 2 ∧ t.ground = true ∧ ∃ a, t.above = some a ∧ ((ports t.sig, ports a), g) ∈ crossingMap) ∨
    (t.sig.fn = 2 ∧ t.fanoutSize ≠ 2 ∧ t.ground = false ∧ g = []) := by
  unfold setUp at h
  simp only at h
  by_cases h1 : t.sig.fn = 2 ∧ t.fanoutSize = 2
  · rw [if_pos h1] at h
    exact .inl ⟨(2, fanoutMap), by simp [singleMaps], h1.1.symm, lookup_gate h, fun _ => .inl h1.2⟩
  rw [if_neg h1] at h
  by_cases h2 : t.sig.fn = 2
  · rw [if_pos h2] at h
    by_cases h3 : t.ground = true
    · rw [if_pos h3] at h
      cases ha : t.above with
      | none =>
        rw [ha] at h
        exact .inl ⟨(2, wireMap), by simp [singleMaps], h2.symm, lookup_gate h, fun _ => .inr ⟨h3, rfl⟩⟩
      | some a =>
        rw [ha] at h
        exact .inr (.inl ⟨h2, fun x => h1 ⟨h2, x⟩, h3, a, rfl, lookup_gate h⟩)
    · rw [if_neg h3] at h
      simp only [Outcome.gate.injEq] at h
      exact .inr (.inr ⟨h2, fun x => h1 ⟨h2, x⟩, by simpa using h3, h.symm⟩)
  rw [if_neg h2] at h
  left
  split_ifs at h with i3 i4 i6 i5 i7 i12 i13
  · exact ⟨(3, inverterMap), by simp [singleMaps], i3.symm, lookup_gate h, fun x => absurd x h2⟩
  · exact ⟨(4, conjunctionMap), by simp [singleMaps], i4.symm, lookup_gate h, fun x => absurd x h2⟩
  · exact ⟨(6, disjunctionMap), by simp [singleMaps], i6.symm, lookup_gate h, fun x => absurd x h2⟩
  · exact ⟨(5, negatedConjunctionMap), by simp [singleMaps], i5.symm, lookup_gate h, fun x => absurd x h2⟩
  · exact ⟨(7, negatedDisjunctionMap), by simp [singleMaps], i7.symm, lookup_gate h, fun x => absurd x h2⟩
  · exact ⟨(12, exclusiveDisjunctionMap), by simp [singleMaps], i12.symm, lookup_gate h, fun x => absurd x h2⟩
  · exact ⟨(13, negatedExclusiveDisjunctionMap), by simp [singleMaps], i13.symm, lookup_gate h, fun x => absurd x h2⟩

set_option synthInstance.maxSize 1000 in
theorem table_contacts : ∀ m ∈ singleMaps, ∀ e ∈ m.2, ∀ d ∈ allSides, e.1.at d = true → ∀ q ∈ pins d, q ∈ e.2 := by
  decide +kernel

theorem table_crossing : ∀ e ∈ crossingMap, ∀ d ∈ allSides, ∀ q ∈ pins d, q ∈ e.2 := by decide +kernel

theorem table_crossing_ports : ∀ e ∈ crossingMap, ∀ d ∈ allSides, e.1.1.at d ≠ e.1.2.at d := by decide +kernel

set_option synthInstance.maxSize 1000 in
theorem table_unused : ∀ m ∈ singleMaps, ∀ e ∈ m.2, ((e.1.nw || e.1.ne) && (e.1.sw || e.1.se)) = true →
    ∀ d ∈ allSides, e.1.at d = false → ∀ q ∈ pins d, q ∉ e.2 := by
  decide +kernel

theorem table_implementations : ∀ m ∈ singleMaps, ∀ e ∈ m.2, e.2 = [] ∨
    ∃ i ∈ implementations, i.1 = m.1 ∧ e.2 ∈ i.2 := by
  decide +kernel

theorem table_crossing_implementations : ∀ e ∈ crossingMap, ∃ i ∈ implementations, i.1 = 2 ∧ e.2 ∈ i.2 := by
  decide +kernel

/-! ## Theorems -/

/-- An AND gate with its output in the south-west. -/
def andTile : Tile := ⟨⟨4, false, true, true, true, false, false, false⟩, 1, true, none⟩

/-- Two crossing wires. -/
def crossTile : Tile :=
  ⟨⟨2, false, true, false, false, true, false, false⟩, 1, true, some ⟨2, false, false, true, true, false, false, false⟩⟩

/-- A fan-out. -/
def fanTile : Tile := ⟨⟨2, false, true, false, true, true, false, false⟩, 2, true, none⟩

example : setUp andTile = .gate mirroredConjunction ∧ setUp crossTile = .gate crossingWire ∧ setUp fanTile = .gate fanout12 := by
  decide +kernel

/-- C58: if a signal enters or leaves a tile on a side, the gate has the dots of a wire that ends there. This excepts the wires
in the crossing layer, which are realized together with the tiles below them. -/
theorem C58_bestagon_contact {t : Tile} {g : Dots} (h : setUp t = .gate g)
    (hg : t.ground = true ∨ t.sig.fn ≠ 2 ∨ t.fanoutSize = 2) {d : Side} (hd : t.sig.at d = true) : ∀ q ∈ pins d, q ∈ g := by
  rcases setUp_cases h with ⟨m, hm, -, he, -⟩ | ⟨-, -, -, a, -, he⟩ | ⟨h1, h2, h3, -⟩
  · exact table_contacts m hm _ he d (mem_allSides d) (ports_at hd)
  · exact table_crossing _ he d (mem_allSides d)
  · rw [h3] at hg
    rcases hg with hg | hg | hg
    · exact absurd hg (by decide)
    · exact absurd h1 hg
    · exact absurd hg h2

/-- C58: a wire in the crossing layer above another wire is part of the gate of the lower tile, and the two use different sides. -/
theorem C58_bestagon_crossing {t : Tile} {a : Sig} {g : Dots} (h : setUp t = .gate g) (hf : t.sig.fn = 2)
    (hs : t.fanoutSize ≠ 2) (hg : t.ground = true) (ha : t.above = some a) {d : Side} (hd : a.at d = true) :
    (∀ q ∈ pins d, q ∈ g) ∧ t.sig.at d = false := by
  rcases setUp_cases h with ⟨m, hm, -, he, hx⟩ | ⟨-, -, -, a', ha', he⟩ | ⟨-, -, h3, -⟩
  · rcases hx hf with h2 | ⟨-, h2⟩
    · exact absurd h2 hs
    · rw [ha] at h2; simp at h2
  · rw [ha] at ha'
    simp only [Option.some.injEq] at ha'
    subst ha'
    refine ⟨table_crossing _ he d (mem_allSides d), ?_⟩
    have hne := table_crossing_ports _ he d (mem_allSides d)
    simp only [ports_at hd] at hne
    by_contra hc
    exact hne (ports_at (by simpa using hc))
  · rw [hg] at h3; simp at h3

example : ∃ g, setUp crossTile = .gate g ∧ crossTile.sig.fn = 2 ∧ crossTile.fanoutSize ≠ 2 ∧ crossTile.ground = true :=
  ⟨crossingWire, by decide +kernel, rfl, by decide, rfl⟩

/-- C58: a gate with fanins and fanouts has none of the dots of wires that end at other sides. -/
theorem C58_bestagon_no_other_contact {t : Tile} {g : Dots} (h : setUp t = .gate g) (hi : t.sig.noInc = false)
    (ho : t.sig.noOut = false) (hs : t.sig.incNw = true ∨ t.sig.incNe = true) (hs' : t.sig.outSw = true ∨ t.sig.outSe = true)
    {d : Side} {q : Nat × Nat} (hq : q ∈ pins d) (hm : q ∈ g) :
    t.sig.at d = true ∨ ∃ a, t.above = some a ∧ t.sig.fn = 2 ∧ (ports a).at d = true := by
  rcases setUp_cases h with ⟨m, hmm, -, he, hx⟩ | ⟨h2, -, -, a, ha, he⟩ | ⟨-, -, -, rfl⟩
  · left
    by_contra hc
    refine table_unused m hmm _ he ?_ d (mem_allSides d) ?_ q hq hm
    · have e1 : (ports t.sig).nw = true ∨ (ports t.sig).ne = true :=
        hs.imp (fun x => ports_at (d := .nw) x) (fun x => ports_at (d := .ne) x)
      have e2 : (ports t.sig).sw = true ∨ (ports t.sig).se = true :=
        hs'.imp (fun x => ports_at (d := .sw) x) (fun x => ports_at (d := .se) x)
      simp only [Bool.and_eq_true, Bool.or_eq_true]
      exact ⟨e1, e2⟩
    · by_contra hp
      rcases at_ports (s := t.sig) (d := d) (by simpa using hp) with h1 | h1 | h1
      · exact hc h1
      · rw [hi] at h1; simp at h1
      · rw [ho] at h1; simp at h1
  · by_cases hc : t.sig.at d = true
    · exact .inl hc
    · right
      refine ⟨a, ha, h2, ?_⟩
      have hne := table_crossing_ports _ he d (mem_allSides d)
      by_contra hp
      have e1 : (ports t.sig).at d = true := by
        by_contra hh
        apply hne
        simp only [Bool.not_eq_true] at hp hh
        simp only [hp, hh]
      rcases at_ports e1 with h1 | h1 | h1
      · exact hc h1
      · rw [hi] at h1; simp at h1
      · rw [ho] at h1; simp at h1
  · simp at hm

/-- C58: all dots are in columns 16 to 42 and rows 6 to 38. -/
theorem C58_bestagon_region {t : Tile} {g : Dots} (h : setUp t = .gate g) {q : Nat × Nat} (hq : q ∈ g) :
    16 ≤ q.1 ∧ q.1 ≤ 42 ∧ 6 ≤ q.2 ∧ q.2 ≤ 38 := by
  have t1 : ∀ m ∈ singleMaps, ∀ e ∈ m.2, ∀ q ∈ e.2, 16 ≤ q.1 ∧ q.1 ≤ 42 ∧ 6 ≤ q.2 ∧ q.2 ≤ 38 := by decide +kernel
  have t2 : ∀ e ∈ crossingMap, ∀ q ∈ e.2, 16 ≤ q.1 ∧ q.1 ≤ 42 ∧ 6 ≤ q.2 ∧ q.2 ≤ 38 := by decide +kernel
  rcases setUp_cases h with ⟨m, hm, -, he, -⟩ | ⟨-, -, -, a, -, he⟩ | ⟨-, -, -, rfl⟩
  · exact t1 m hm _ he q hq
  · exact t2 _ he q hq
  · simp at hq

/-- C58: the gate is one that `get_functional_implementations` lists for the function of the tile, or the empty gate of a wire. -/
theorem C58_bestagon_implementation {t : Tile} {g : Dots} (h : setUp t = .gate g) :
    (g = [] ∧ t.sig.fn = 2) ∨ ∃ i ∈ implementations, i.1 = t.sig.fn ∧ g ∈ i.2 := by
  rcases setUp_cases h with ⟨m, hm, e, he, -⟩ | ⟨h2, -, -, a, -, he⟩ | ⟨h2, -, -, rfl⟩
  · rcases table_implementations m hm _ he with h1 | ⟨i, hi, h1, h2⟩
    · left
      refine ⟨h1, ?_⟩
      have : ∀ m ∈ singleMaps, ∀ e ∈ m.2, e.2 = [] → m.1 = 2 := by decide +kernel
      rw [← e]
      exact this m hm _ he h1
    · exact .inr ⟨i, hi, h1.trans e, h2⟩
  · obtain ⟨i, hi, h1, h3⟩ := table_crossing_implementations _ he
    exact .inr ⟨i, hi, h1.trans h2.symm, h3⟩
  · exact .inl ⟨rfl, h2⟩

/-- C58: different entries of `get_functional_implementations` are different gates, no gate is listed for two functions, and
`get_gate_ports` lists each of them exactly once. -/
theorem C58_bestagon_catalogue :
    (implementations.flatMap Prod.snd).Nodup ∧ (implementations.map Prod.fst).Nodup ∧ (gatePorts.map Prod.fst).Nodup ∧
      (∀ g, g ∈ gatePorts.map Prod.fst ↔ g ∈ implementations.flatMap Prod.snd) := by
  refine ⟨by decide +kernel, by decide, by decide +kernel, ?_⟩
  have h1 : ∀ g ∈ gatePorts.map Prod.fst, g ∈ implementations.flatMap Prod.snd := by decide +kernel
  have h2 : ∀ g ∈ implementations.flatMap Prod.snd, g ∈ gatePorts.map Prod.fst := by decide +kernel
  exact fun g => ⟨h1 g, h2 g⟩

/-- C58: the sides that `get_gate_ports` lists for a gate are those at which wires of the gate end, except that one list of some
gates leaves the sides out that have no neighbor. -/
theorem C58_bestagon_gate_ports {g : Dots} {l : List Ports} (h : (g, l) ∈ gatePorts) :
    (∀ p ∈ l, ∀ d, p.at d = true → ∀ q ∈ pins d, q ∈ g) ∧
      ∃ p ∈ l, ∀ d, (p.at d = true ↔ ∃ q ∈ pins d, q ∈ g) := by
  have t1 : ∀ e ∈ gatePorts, ∀ p ∈ e.2, ∀ d ∈ allSides, p.at d = true → ∀ q ∈ pins d, q ∈ e.1 := by decide +kernel
  have t2 : ∀ e ∈ gatePorts, ∃ p ∈ e.2, ∀ d ∈ allSides, (p.at d = true ↔ ∃ q ∈ pins d, q ∈ e.1) := by decide +kernel
  refine ⟨fun p hp d => t1 _ h p hp d (mem_allSides d), ?_⟩
  obtain ⟨p, hp, hh⟩ := t2 _ h
  exact ⟨p, hp, fun d => hh d (mem_allSides d)⟩

/-- C58: the gates with mirrored ports are mirror images. -/
theorem C58_bestagon_mirrored :
    ∀ e ∈ [(straightWire, mirroredStraightWire), (diagonalWire, mirroredDiagonalWire), (straightInverter, mirroredStraightInverter),
      (diagonalInverter, mirroredDiagonalInverter), (conjunction, mirroredConjunction), (disjunction, mirroredDisjunction),
      (negatedConjunction, mirroredNegatedConjunction), (negatedDisjunction, mirroredNegatedDisjunction),
      (exclusiveDisjunction, mirroredExclusiveDisjunction), (negatedExclusiveDisjunction, mirroredNegatedExclusiveDisjunction),
      (fanout12, mirroredFanout12)], (mirror e.1).Perm e.2 := by
  decide +kernel

/-- Differences of consecutive positions, by absolute value. -/
def steps : List (Nat × Nat) → List (Nat × Nat)
  | p :: q :: l => ((p.1 - q.1) + (q.1 - p.1), (p.2 - q.2) + (q.2 - p.2)) :: steps (q :: l)
  | _ => []

/-- C58: the dots of a wire continue regularly across the border of two tiles. The tile in the south-east of a tile is 30 columns
and 34 rows further; the one in the south-west is 30 columns before. -/
theorem C58_bestagon_wire_continues :
    steps ((pins .se).reverse ++ (pins .nw).map (fun p => (p.1 + 30, p.2 + 34))) = [(4, 2), (2, 2), (4, 2), (2, 2), (4, 2)] ∧
    steps (((pins .sw).reverse.map (fun p => (p.1 + 30, p.2))) ++ (pins .ne).map (fun p => (p.1, p.2 + 34))) =
      [(4, 2), (2, 2), (4, 2), (2, 2), (4, 2)] := by
  decide

/-- C58 (disagreement): the wire above a fan-out is lost. `set_up_gate` looks for a wire in the crossing layer only above wires
that are no fan-outs, and it returns the empty gate for the tile of the upper wire. -/
theorem C58_bestagon_wire_above_fanout_lost (s a : Sig) (n : Nat) (hs : s.fn = 2) (ha : a.fn = 2) (hn : n ≠ 2) :
    setUp ⟨s, 2, true, some a⟩ = setUp ⟨s, 2, true, none⟩ ∧ setUp ⟨a, n, false, none⟩ = .gate [] := by
  simp [setUp, hs, ha, hn]

/-- In the tile of `fanTile`, no dot of a wire from the north-east is left. -/
example : setUp ⟨fanTile.sig, 2, true, some ⟨2, false, false, true, true, false, false, false⟩⟩ = .gate fanout12 ∧
    ∀ q ∈ pins .ne, q ∉ fanout12 := by decide +kernel

end Verif.Library.Bestagon
