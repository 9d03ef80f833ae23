import Verif.Io.Qll
import Mathlib.Data.List.Basic
import Mathlib.Data.List.Pairwise
import Mathlib.Data.List.Nodup

/-!
# C116: output of QCA layouts for SCERPA and MagCAD

## Specification
-/
namespace Verif.Qll

/-- A cell of the layout that is not empty. -/
def Layout.Occupied (L : Layout) (c : Cell) : Prop := c.x ≤ L.w ∧ c.y ≤ L.h ∧ c.z ≤ L.d ∧ L.type c ≠ .empty

/-- The inputs and outputs are the cells of these types, and the bounding box is one of the cells. -/
structure Layout.Sound (L : Layout) : Prop where
  pis : ∀ c, c ∈ L.pis ↔ c.x ≤ L.w ∧ c.y ≤ L.h ∧ c.z ≤ L.d ∧ L.type c = .input
  pos : ∀ c, c ∈ L.pos ↔ c.x ≤ L.w ∧ c.y ≤ L.h ∧ c.z ≤ L.d ∧ L.type c = .output
  pisNodup : L.pis.Nodup
  posNodup : L.pos.Nodup
  box : ∀ c, L.Occupied c → L.minX ≤ c.x ∧ L.minY ≤ c.y

/-- The kind of element for a cell. -/
inductive Layout.KindOf (L : Layout) (c : Cell) : Kind → Prop
  | normal : L.type c = .normal → L.KindOf c (.item (L.clock c))
  | const0 : L.type c = .const0 → L.KindOf c (.pin "const0" 0)
  | const1 : L.type c = .const1 → L.KindOf c (.pin "const1" 0)
  | input : L.type c = .input → L.KindOf c (.pin (L.name c) 0)
  | output : L.type c = .output → L.KindOf c (.pin (L.name c) 1)

/-- The element is at the column and row of the cell. -/
def Layout.Above (L : Layout) (b : Body) (c : Cell) : Prop := c.x = L.minX + b.x ∧ c.y = L.minY + b.y

/-- The element is that of a cell, in an even layer, or that of a connection to the next layer of cells, in an odd layer. -/
def Layout.Meant (L : Layout) (b : Body) : Prop :=
  (∃ c, L.Occupied c ∧ L.Above b c ∧ b.layer = 2 * c.z ∧ L.KindOf c b.kind) ∨
  ∃ c, L.Occupied c ∧ L.vertical c = true ∧ c.z < L.d ∧ L.Above b c ∧ b.layer = 2 * c.z + 1 ∧ b.kind = .item (L.clock c)

/-- The place of an element. -/
def Body.place (b : Body) : Nat × Nat × Nat := (b.x, b.y, b.layer)

/-! ## Lemmas -/

theorem mem_cells (L : Layout) (c : Cell) : c ∈ L.cells ↔ c.x ≤ L.w ∧ c.y ≤ L.h ∧ c.z ≤ L.d := by
  unfold Layout.cells
  simp only [List.mem_flatMap, List.mem_map, List.mem_range]
  constructor
  · rintro ⟨z, hz, y, hy, x, hx, rfl⟩
    dsimp only
    omega
  · intro h
    exact ⟨c.z, by omega, c.y, by omega, c.x, by omega, rfl⟩

theorem mem_inLoop (L : Layout) (c : Cell) (b : Body) : b ∈ L.inLoop c ↔ L.type c ≠ .empty ∧
    ((L.type c = .normal ∧ b = L.body (.item (L.clock c)) c (c.z * 2)) ∨ (L.type c = .const0 ∧ b = L.body (.pin "const0" 0) c (c.z * 2)) ∨
    (L.type c = .const1 ∧ b = L.body (.pin "const1" 0) c (c.z * 2)) ∨
    (L.vertical c = true ∧ c.z ≠ L.d ∧ b = L.body (.item (L.clock c)) c (c.z * 2 + 1))) := by
  unfold Layout.inLoop
  by_cases hv : L.vertical c = true ∧ c.z ≠ L.d
  · cases ht : L.type c <;> simp [hv]
  · cases ht : L.type c <;> simp [hv] <;> (try tauto)

theorem mem_pins (L : Layout) (b : Body) : b ∈ L.pins ↔
    (∃ c ∈ L.pis, b = L.body (.pin (L.name c) 0) c c.z) ∨ ∃ c ∈ L.pos, b = L.body (.pin (L.name c) 1) c c.z := by
  unfold Layout.pins
  simp only [List.mem_append, List.mem_map, List.mem_mergeSort]
  constructor <;> (rintro (⟨c, h, rfl⟩ | ⟨c, h, rfl⟩) <;> [exact Or.inl ⟨c, h, rfl⟩; exact Or.inr ⟨c, h, rfl⟩])

theorem above (L : Layout) (hs : L.Sound) (c : Cell) (hc : L.Occupied c) (k : Kind) (l : Nat) : L.Above (L.body k c l) c := by
  have := hs.box c hc
  unfold Layout.Above Layout.body
  dsimp only
  omega

theorem body_of (L : Layout) (b : Body) (c : Cell) (h : L.Above b c) (k : Kind) (l : Nat) (hk : b.kind = k) (hl : b.layer = l) :
    b = L.body k c l := by
  obtain ⟨h1, h2⟩ := h
  cases b
  unfold Layout.body
  simp only [Body.mk.injEq] at *
  exact ⟨hk, by omega, by omega, hl⟩

theorem cells_nodup (L : Layout) : L.cells.Nodup := by
  unfold Layout.cells
  rw [List.nodup_flatMap]
  refine ⟨fun z _ => ?_, ?_⟩
  · rw [List.nodup_flatMap]
    refine ⟨fun y _ => List.Nodup.map (fun a b h => by simpa using h) List.nodup_range, ?_⟩
    refine List.nodup_range.imp ?_
    intro a b hab c hc hd
    obtain ⟨x, _, rfl⟩ := List.mem_map.1 hc
    obtain ⟨x', _, h⟩ := List.mem_map.1 hd
    simp only [Cell.mk.injEq] at h
    exact hab h.2.1.symm
  · refine List.nodup_range.imp ?_
    intro a b hab c hc hd
    simp only [List.mem_flatMap, List.mem_map] at hc hd
    obtain ⟨y, _, x, _, rfl⟩ := hc
    obtain ⟨y', _, x', _, h⟩ := hd
    simp only [Cell.mk.injEq] at h
    exact hab h.2.2.symm

theorem inLoop_place (L : Layout) (c : Cell) (p : Nat × Nat × Nat) (h : p ∈ (L.inLoop c).map Body.place) : L.type c ≠ .empty ∧
    p.1 = c.x - L.minX ∧ p.2.1 = c.y - L.minY ∧ (p.2.2 = 2 * c.z ∧ L.type c ≠ .input ∧ L.type c ≠ .output ∨ p.2.2 = 2 * c.z + 1) := by
  obtain ⟨b, hb, rfl⟩ := List.mem_map.1 h
  rw [mem_inLoop] at hb
  obtain ⟨ht, hb⟩ := hb
  refine ⟨ht, ?_⟩
  clear h
  rcases hb with ⟨h, rfl⟩ | ⟨h, rfl⟩ | ⟨h, rfl⟩ | ⟨_, _, rfl⟩
  · exact ⟨rfl, rfl, Or.inl ⟨Nat.mul_comm _ _, by rw [h]; decide, by rw [h]; decide⟩⟩
  · exact ⟨rfl, rfl, Or.inl ⟨Nat.mul_comm _ _, by rw [h]; decide, by rw [h]; decide⟩⟩
  · exact ⟨rfl, rfl, Or.inl ⟨Nat.mul_comm _ _, by rw [h]; decide, by rw [h]; decide⟩⟩
  · exact ⟨rfl, rfl, Or.inr (by show c.z * 2 + 1 = _; omega)⟩

theorem inLoop_nodup (L : Layout) (c : Cell) : ((L.inLoop c).map Body.place).Nodup := by
  unfold Layout.inLoop
  split
  · simp
  · split <;> split <;> simp [Layout.body, Body.place]

theorem same_cell (L : Layout) (hs : L.Sound) (c d : Cell) (hc : L.Occupied c) (hd : L.Occupied d) (hx : c.x - L.minX = d.x - L.minX)
    (hy : c.y - L.minY = d.y - L.minY) (hz : c.z = d.z) : c = d := by
  have h1 := hs.box c hc
  have h2 := hs.box d hd
  cases c
  cases d
  simp only [Cell.mk.injEq] at *
  omega

theorem pins_nodup (L : Layout) (hs : L.Sound) (f g : Cell → Kind) (ps qs : List Cell) (hp : ps.Nodup) (hq : qs.Nodup)
    (ho : ∀ c, c ∈ ps ∨ c ∈ qs → L.Occupied c) (hd : ∀ c ∈ ps, c ∉ qs) :
    ((ps.map (fun c => L.body (f c) c c.z) ++ qs.map fun c => L.body (g c) c c.z).map Body.place).Nodup := by
  rw [List.map_append, List.map_map, List.map_map, List.nodup_append]
  refine ⟨List.Nodup.map_on ?_ hp, List.Nodup.map_on ?_ hq, ?_⟩
  · intro a ha b hb h
    simp only [Function.comp, Layout.body, Body.place, Prod.mk.injEq] at h
    exact same_cell L hs a b (ho a (Or.inl ha)) (ho b (Or.inl hb)) h.1 h.2.1 h.2.2
  · intro a ha b hb h
    simp only [Function.comp, Layout.body, Body.place, Prod.mk.injEq] at h
    exact same_cell L hs a b (ho a (Or.inr ha)) (ho b (Or.inr hb)) h.1 h.2.1 h.2.2
  · intro p hp' q hq' e
    obtain ⟨a, ha, rfl⟩ := List.mem_map.1 hp'
    obtain ⟨b, hb, rfl⟩ := List.mem_map.1 hq'
    simp only [Function.comp, Layout.body, Body.place, Prod.mk.injEq] at e
    have := same_cell L hs a b (ho a (Or.inl ha)) (ho b (Or.inr hb)) e.1 e.2.1 e.2.2
    exact hd a ha (this ▸ hb)

/-! ## Theorems -/

/-- C116. No two elements of a layout whose inputs and outputs are in the lowest layer are at the same place. Missing: inputs and outputs in other
layers, see C116_false_pins. -/
theorem C116_places_partial (L : Layout) (hs : L.Sound) (hz : ∀ c, c ∈ L.pis ∨ c ∈ L.pos → c.z = 0) :
    (L.write.map fun e => e.1.place).Nodup := by
  have hw : (L.write.map fun e => e.1.place) = L.bodies.map Body.place := by
    unfold Layout.write
    rw [show (fun e : Body × Nat => e.1.place) = Body.place ∘ Prod.fst from rfl, ← List.map_map, List.zipIdx_map_fst]
  have hpi : ∀ c, c ∈ L.pis → L.Occupied c ∧ L.type c = .input := fun c hc => by
    obtain ⟨h1, h2, h3, h4⟩ := (hs.pis c).1 hc
    exact ⟨⟨h1, h2, h3, by rw [h4]; decide⟩, h4⟩
  have hpo : ∀ c, c ∈ L.pos → L.Occupied c ∧ L.type c = .output := fun c hc => by
    obtain ⟨h1, h2, h3, h4⟩ := (hs.pos c).1 hc
    exact ⟨⟨h1, h2, h3, by rw [h4]; decide⟩, h4⟩
  rw [hw]
  unfold Layout.bodies
  rw [List.map_append, List.map_flatMap, List.nodup_append]
  refine ⟨?_, ?_, ?_⟩
  · rw [List.nodup_flatMap]
    refine ⟨fun c _ => inLoop_nodup L c, ?_⟩
    refine (cells_nodup L).imp_of_mem ?_
    intro c d hc hd hne p hp hq
    obtain ⟨h1, h2, h3, h4⟩ := inLoop_place L c p hp
    obtain ⟨k1, k2, k3, k4⟩ := inLoop_place L d p hq
    rw [mem_cells] at hc hd
    exact hne (same_cell L hs c d ⟨hc.1, hc.2.1, hc.2.2, h1⟩ ⟨hd.1, hd.2.1, hd.2.2, k1⟩ (by omega) (by omega) (by omega))
  · unfold Layout.pins
    refine pins_nodup L hs (fun c => .pin (L.name c) 0) (fun c => .pin (L.name c) 1) _ _ ((List.mergeSort_perm _ _).nodup_iff.2 hs.pisNodup)
      ((List.mergeSort_perm _ _).nodup_iff.2 hs.posNodup) ?_ ?_
    · intro c hc
      rw [List.mem_mergeSort, List.mem_mergeSort] at hc
      exact hc.elim (fun h => (hpi c h).1) fun h => (hpo c h).1
    · intro c hc hd
      rw [List.mem_mergeSort] at hc hd
      have h1 := (hpi c hc).2
      rw [(hpo c hd).2] at h1
      cases h1
  · intro p hp q hq e
    subst e
    obtain ⟨c, hc, hp⟩ := List.mem_flatMap.1 hp
    obtain ⟨h1, h2, h3, h4⟩ := inLoop_place L c p hp
    rw [mem_cells] at hc
    have hoc : L.Occupied c := ⟨hc.1, hc.2.1, hc.2.2, h1⟩
    obtain ⟨b, hb, rfl⟩ := List.mem_map.1 hq
    rw [mem_pins] at hb
    rcases hb with ⟨d, hd, rfl⟩ | ⟨d, hd, rfl⟩
    · have h0 := hz d (Or.inl hd)
      simp only [Layout.body, Body.place] at h2 h3 h4
      rcases h4 with ⟨h4, h5, _⟩ | h4
      · exact h5 (same_cell L hs d c (hpi d hd).1 hoc h2 h3 (by omega) ▸ (hpi d hd).2)
      · omega
    · have h0 := hz d (Or.inr hd)
      simp only [Layout.body, Body.place] at h2 h3 h4
      rcases h4 with ⟨h4, _, h5⟩ | h4
      · exact h5 (same_cell L hs d c (hpo d hd).1 hoc h2 h3 (by omega) ▸ (hpo d hd).2)
      · omega


/-- C116. The identifiers are 1, 2, 3 and so on. -/
theorem C116_ids (L : Layout) : L.write.map Prod.snd = List.range' 1 L.write.length := by
  unfold Layout.write
  rw [List.zipIdx_map_snd, List.length_zipIdx]

/-- C116. The elements of a layout whose inputs and outputs are in the lowest layer are those of its cells and of the connections between layers.
Missing: inputs and outputs in other layers, see C116_false_pins. -/
theorem C116_elements_partial (L : Layout) (hs : L.Sound) (hz : ∀ c, c ∈ L.pis ∨ c ∈ L.pos → c.z = 0) (b : Body) :
    (∃ i, (b, i) ∈ L.write) ↔ L.Meant b := by
  have hw : (∃ i, (b, i) ∈ L.write) ↔ b ∈ L.bodies := by
    unfold Layout.write
    constructor
    · rintro ⟨i, hi⟩
      exact List.fst_mem_of_mem_zipIdx hi
    · intro hb
      obtain ⟨k, hk, rfl⟩ := List.getElem_of_mem hb
      exact ⟨k + 1, by rw [List.mk_mem_zipIdx_iff_le_and_getElem?_sub]; simp [hk]⟩
  rw [hw]
  unfold Layout.bodies
  rw [List.mem_append, List.mem_flatMap, mem_pins]
  constructor
  · rintro (⟨c, hc, hb⟩ | ⟨c, hc, rfl⟩ | ⟨c, hc, rfl⟩)
    · rw [mem_cells] at hc
      rw [mem_inLoop] at hb
      obtain ⟨ht, hb⟩ := hb
      have ho : L.Occupied c := ⟨hc.1, hc.2.1, hc.2.2, ht⟩
      rcases hb with ⟨h, rfl⟩ | ⟨h, rfl⟩ | ⟨h, rfl⟩ | ⟨h, hd, rfl⟩
      · exact Or.inl ⟨c, ho, above L hs c ho _ _, Nat.mul_comm _ _, .normal h⟩
      · exact Or.inl ⟨c, ho, above L hs c ho _ _, Nat.mul_comm _ _, .const0 h⟩
      · exact Or.inl ⟨c, ho, above L hs c ho _ _, Nat.mul_comm _ _, .const1 h⟩
      · exact Or.inr ⟨c, ho, h, by omega, above L hs c ho _ _, by show c.z * 2 + 1 = _; omega, rfl⟩
    · obtain ⟨h1, h2, h3, h4⟩ := (hs.pis c).1 hc
      have ho : L.Occupied c := ⟨h1, h2, h3, by rw [h4]; decide⟩
      have := hz c (Or.inl hc)
      exact Or.inl ⟨c, ho, above L hs c ho _ _, by show c.z = _; omega, .input h4⟩
    · obtain ⟨h1, h2, h3, h4⟩ := (hs.pos c).1 hc
      have ho : L.Occupied c := ⟨h1, h2, h3, by rw [h4]; decide⟩
      have := hz c (Or.inr hc)
      exact Or.inl ⟨c, ho, above L hs c ho _ _, by show c.z = _; omega, .output h4⟩
  · rintro (⟨c, ho, ha, hl, hk⟩ | ⟨c, ho, hv, hd, ha, hl, hk⟩)
    · have hm := (mem_cells L c).2 ⟨ho.1, ho.2.1, ho.2.2.1⟩
      generalize hkk : b.kind = k at hk
      cases hk with
      | normal h => exact Or.inl ⟨c, hm, (mem_inLoop L c b).2 ⟨ho.2.2.2, Or.inl ⟨h, body_of L b c ha _ _ hkk (by omega)⟩⟩⟩
      | const0 h => exact Or.inl ⟨c, hm, (mem_inLoop L c b).2 ⟨ho.2.2.2, Or.inr (Or.inl ⟨h, body_of L b c ha _ _ hkk (by omega)⟩)⟩⟩
      | const1 h => exact Or.inl ⟨c, hm, (mem_inLoop L c b).2 ⟨ho.2.2.2, Or.inr (Or.inr (Or.inl ⟨h, body_of L b c ha _ _ hkk (by omega)⟩))⟩⟩
      | input h =>
        have hp := (hs.pis c).2 ⟨ho.1, ho.2.1, ho.2.2.1, h⟩
        have := hz c (Or.inl hp)
        exact Or.inr (Or.inl ⟨c, hp, body_of L b c ha _ _ hkk (by omega)⟩)
      | output h =>
        have hp := (hs.pos c).2 ⟨ho.1, ho.2.1, ho.2.2.1, h⟩
        have := hz c (Or.inr hp)
        exact Or.inr (Or.inr ⟨c, hp, body_of L b c ha _ _ hkk (by omega)⟩)
    · have hm := (mem_cells L c).2 ⟨ho.1, ho.2.1, ho.2.2.1⟩
      exact Or.inl ⟨c, hm, (mem_inLoop L c b).2 ⟨ho.2.2.2, Or.inr (Or.inr (Or.inr ⟨hv, by omega, body_of L b c ha _ _ hk (by omega)⟩))⟩⟩

/-- An input in the second layer above a connection. -/
def raised : Layout := ⟨0, 0, 1, 0, 0, fun c => if c = ⟨0, 0, 0⟩ then .normal else if c = ⟨0, 0, 1⟩ then .input else .empty,
  fun c => decide (c = ⟨0, 0, 0⟩), fun _ => 0, fun _ => "a", [⟨0, 0, 1⟩], []⟩

/-- C116. An input in the second layer of cells is written to the layer of connections, where it is at the same place as another element. -/
theorem C116_false_pins : (∃ b i, (b, i) ∈ raised.write ∧ ¬ raised.Meant b) ∧ ¬ (raised.write.map fun e => e.1.place).Nodup := by
  have hw : raised.write = [(⟨.item 0, 0, 0, 0⟩, 1), (⟨.item 0, 0, 0, 1⟩, 2), (⟨.pin "a" 0, 0, 0, 1⟩, 3)] := by
    have h1 : raised.pins = [⟨.pin "a" 0, 0, 0, 1⟩] := by
      unfold Layout.pins raised
      simp [Layout.body]
    unfold Layout.write Layout.bodies
    rw [h1]
    decide +kernel
  rw [hw]
  refine ⟨⟨⟨.pin "a" 0, 0, 0, 1⟩, 3, by simp, ?_⟩, by decide⟩
  rintro (⟨c, _, _, h, _⟩ | ⟨c, _, _, _, _, _, h⟩)
  · simp only at h
    omega
  · cases h

/-! ## Examples -/

/-- An input beside a connection between two layers. -/
def sample : Layout := ⟨1, 0, 1, 0, 0, fun c => if c = ⟨0, 0, 0⟩ then .input else if c = ⟨1, 0, 0⟩ ∨ c = ⟨1, 0, 1⟩ then .normal else .empty,
  fun c => decide (c.x = 1), fun _ => 2, fun _ => "a", [⟨0, 0, 0⟩], []⟩

example : sample.Sound ∧ ∀ c, c ∈ sample.pis ∨ c ∈ sample.pos → c.z = 0 := by
  refine ⟨⟨fun c => ?_, fun c => ?_, by decide, by decide, fun c _ => ⟨Nat.zero_le _, Nat.zero_le _⟩⟩, ?_⟩
  · by_cases h : c = ⟨0, 0, 0⟩
    · subst h; decide
    · have : sample.type c ≠ .input := by unfold sample; dsimp only; rw [if_neg h]; split <;> simp
      simp [this]
      simp [sample, h]
  · have : sample.type c ≠ .output := by unfold sample; dsimp only; split; · simp
                                         split <;> simp
    simp [this]
    simp [sample]
  · intro c hc
    simp [sample] at hc
    rw [hc]

end Verif.Qll
