import Verif.PhysicalDesign.ExactMain
import Verif.Clocking.Props

/-!
# The named clocking schemes are fit for `exact`
-/
namespace Verif.PhysicalDesign.Exact

open Verif.Layouts Verif.Clocking Verif.GateLevel Verif.Networks

/-- The four Cartesian neighbours are neighbours in every arrangement. -/
theorem near_adjacent {tp : Topo} {m : Dim} (hs : Small m) {t u : Coord} (ht : t ∈ tiles m) (hu : u ∈ tiles m)
    (h : (u.x = t.x + 1 ∧ u.y = t.y) ∨ (t.x = u.x + 1 ∧ u.y = t.y) ∨ (u.x = t.x ∧ u.y = t.y + 1) ∨ (u.x = t.x ∧ t.y = u.y + 1)) :
    u ∈ tp.adjacent m t := by
  have bt := tile_inBounds ht
  have bu := tile_inBounds hu
  have zt := (mem_tiles.1 ht).2.1
  have zu := (mem_tiles.1 hu).2.1
  cases tp with
  | cart =>
    simp only [Topo.adjacent]
    rw [(C07_adjacent_exact m t bt).1]
    refine ⟨bu, ?_⟩
    unfold GridNeighbors
    omega
  | hex a =>
    simp only [Topo.adjacent]
    rw [C09_adjacent_exact a m hs.1 hs.2 t u bt]
    refine ⟨bu, ?_⟩
    cases a <;> simp only [HexNeighbors, hexCentre, Hex.Arr.pointy, Hex.Arr.off, if_true, Bool.false_eq_true, if_false] <;>
      (refine ⟨by omega, ?_⟩ <;> omega)

/-- A tile with a neighbour of the next clock number has an outgoing zone. -/
theorem out_of_clock {tp : Topo} {m : Dim} {cs : Scheme} (hs : Small m) {t u : Coord} (ht : t ∈ tiles m) (hu : u ∈ tiles m)
    (h : (u.x = t.x + 1 ∧ u.y = t.y) ∨ (t.x = u.x + 1 ∧ u.y = t.y) ∨ (u.x = t.x ∧ u.y = t.y + 1) ∨ (u.x = t.x ∧ t.y = u.y + 1))
    (hc : (cs.clock t + 1) % cs.numClocks = cs.clock u) : outgoingClockedZones tp m cs t ≠ [] := by
  refine List.ne_nil_of_mem (a := u) ?_
  unfold outgoingClockedZones
  rw [List.mem_filter]
  refine ⟨near_adjacent hs ht hu h, ?_⟩
  unfold isOutgoingClocked
  rw [if_neg, hc, beq_self_eq_true]
  rintro rfl
  omega

/-- Every residue has a next one to the east or the south, or within the period to the north or the west. -/
def aliveTable (tab : List (List Nat)) (p q n : Nat) : Bool :=
  (List.range p).all fun r => (List.range q).all fun c =>
    let k := (Clocking.look tab r c + 1) % n
    k == Clocking.look tab r ((c + 1) % q) || k == Clocking.look tab ((r + 1) % p) c ||
      (r != 0 && k == Clocking.look tab (r - 1) c) || (c != 0 && k == Clocking.look tab r (c - 1))

theorem alive_of_table {tp : Topo} {m : Dim} {cs : Scheme} (hs : Small m) {tab : List (List Nat)} {p q : Nat} (hp : 0 < p) (hq : 0 < q)
    (hc : ∀ c, cs.clock c = byRow tab p q c) (ha : aliveTable tab p q cs.numClocks = true) :
    ∀ t ∈ tiles m, t.x ≠ m.X → t.y ≠ m.Y → outgoingClockedZones tp m cs t ≠ [] := by
  intro t ht hx hy
  obtain ⟨h1, h2, h3, h4⟩ := mem_tiles.1 ht
  unfold aliveTable at ha
  rw [List.all_eq_true] at ha
  have ha := ha (t.y % p) (List.mem_range.2 (Nat.mod_lt _ hp))
  rw [List.all_eq_true] at ha
  have ha := ha (t.x % q) (List.mem_range.2 (Nat.mod_lt _ hq))
  simp only [Bool.or_eq_true, Bool.and_eq_true, beq_iff_eq, bne_iff_ne] at ha
  have e0 : cs.clock t = Clocking.look tab (t.y % p) (t.x % q) := hc t
  rcases ha with ((ha | ha) | ⟨hr, ha⟩) | ⟨hr, ha⟩
  · refine out_of_clock (u := ⟨t.x + 1, t.y, 0, false⟩) hs ht (mem_tiles.2 ⟨rfl, rfl, by simp only; omega, h4⟩) (Or.inl ⟨rfl, rfl⟩) ?_
    rw [hc ⟨t.x + 1, t.y, 0, false⟩, e0, ha]
    simp only [byRow]
    rw [mod_succ t.x]
  · refine out_of_clock (u := ⟨t.x, t.y + 1, 0, false⟩) hs ht (mem_tiles.2 ⟨rfl, rfl, h3, by simp only; omega⟩)
      (Or.inr (Or.inr (Or.inl ⟨rfl, rfl⟩))) ?_
    rw [hc ⟨t.x, t.y + 1, 0, false⟩, e0, ha]
    simp only [byRow]
    rw [mod_succ t.y]
  · have h0 : 0 < t.y := by
      rcases Nat.eq_zero_or_pos t.y with h | h
      · rw [h, Nat.zero_mod] at hr; exact absurd rfl hr
      · exact h
    refine out_of_clock (u := ⟨t.x, t.y - 1, 0, false⟩) hs ht (mem_tiles.2 ⟨rfl, rfl, h3, by simp only; omega⟩)
      (Or.inr (Or.inr (Or.inr ⟨rfl, by simp only; omega⟩))) ?_
    rw [hc ⟨t.x, t.y - 1, 0, false⟩, e0, ha]
    simp only [byRow]
    have hl := Nat.mod_lt t.y hp
    rw [mod_pred t.y p hp h0, show t.y % p + p - 1 = (t.y % p - 1) + p by omega, Nat.add_mod_right,
      Nat.mod_eq_of_lt (show t.y % p - 1 < p by omega)]
  · have h0 : 0 < t.x := by
      rcases Nat.eq_zero_or_pos t.x with h | h
      · rw [h, Nat.zero_mod] at hr; exact absurd rfl hr
      · exact h
    refine out_of_clock (u := ⟨t.x - 1, t.y, 0, false⟩) hs ht (mem_tiles.2 ⟨rfl, rfl, by simp only; omega, h4⟩)
      (Or.inr (Or.inl ⟨by simp only; omega, rfl⟩)) ?_
    rw [hc ⟨t.x - 1, t.y, 0, false⟩, e0, ha]
    simp only [byRow]
    have hl := Nat.mod_lt t.x hq
    rw [mod_pred t.x q hq h0, show t.x % q + q - 1 = (t.x % q - 1) + q by omega, Nat.add_mod_right,
      Nat.mod_eq_of_lt (show t.x % q - 1 < q by omega)]

theorem alive_hex {a : Hex.Arr} {n : NumClks} {m : Dim} (hs : Small m) :
    ∀ t ∈ tiles m, t.x ≠ m.X → t.y ≠ m.Y → outgoingClockedZones (.hex a) m (twoddwaveHexClocking (.hex a) n) t ≠ [] := by
  intro t ht hx hy
  obtain ⟨h1, h2, h3, h4⟩ := mem_tiles.1 ht
  have hc : ∀ c, (twoddwaveHexClocking (.hex a) n).clock c = hexFront a c % n.val := by
    intro c
    rw [← fn_hex]
    rfl
  have hn : (twoddwaveHexClocking (.hex a) n).numClocks = n.val := rfl
  cases a with
  | oddRow | evenRow =>
    refine out_of_clock (u := ⟨t.x + 1, t.y, 0, false⟩) hs ht (mem_tiles.2 ⟨rfl, rfl, by simp only; omega, h4⟩) (Or.inl ⟨rfl, rfl⟩) ?_
    rw [hc, hc, hn, Nat.mod_add_mod]
    simp only [hexFront]
    congr 1
    omega
  | oddColumn | evenColumn =>
    refine out_of_clock (u := ⟨t.x, t.y + 1, 0, false⟩) hs ht (mem_tiles.2 ⟨rfl, rfl, h3, by simp only; omega⟩)
      (Or.inr (Or.inr (Or.inl ⟨rfl, rfl⟩))) ?_
    rw [hc, hc, hn, Nat.mod_add_mod]
    simp only [hexFront]
    congr 1
    omega

theorem flat_byRow (tab : List (List Nat)) (p q : Nat) (c : Coord) : byRow tab p q c = byRow tab p q { c with z := 0 } := rfl

/-- The named regular schemes, apart from `2DDWAVE3` on hexagonal layouts. -/
theorem clocked_named {tp : Topo} {name : List Char} {cs : Scheme} (hget : getClockingScheme tp name = some cs) (hr : cs.regular = true)
    (hnot : tp ≠ .cart → name.map Char.toUpper ≠ "2DDWAVE3".toList) {m : Dim} (hs : Small m) : Clocked tp m cs := by
  have cyc : ∀ {s : Scheme}, (∃ n, s = columnarClocking tp n ∨ s = rowClocking tp n ∨ s = twoddwaveHexClocking tp n ∨
      s = twoddwaveClocking tp .four) → ∀ t, ¬ Relation.TransGen (Flow tp m s) t t := by
    rintro s ⟨n, h⟩ t
    cases tp with
    | cart =>
      rcases h with h | h | h | h
      · exact C12_cartesian_acyclic m n s (Or.inl h) t
      · exact C12_cartesian_acyclic m n s (Or.inr (Or.inl h)) t
      · exact C12_cartesian_acyclic m n s (Or.inr (Or.inr (Or.inr h))) t
      · exact C12_cartesian_acyclic m .four s (Or.inr (Or.inr (Or.inl h))) t
    | hex a => exact C12_hexagonal_acyclic a m hs.1 hs.2 n s h t
  have byTab : ∀ (s : Scheme) (tab : List (List Nat)) (p q : Nat), 0 < p → 0 < q → (∀ c, s.clock c = byRow tab p q c) → ∀ n, s.numClocks = n →
      aliveTable tab p q n = true → (isLinearScheme s = true → ∀ t, ¬ Relation.TransGen (Flow tp m s) t t) → Clocked tp m s := by
    intro s tab p q hp hq hc n hn ha hl
    subst hn
    exact ⟨hs, fun c => by rw [hc, hc]; exact flat_byRow _ _ _ _, alive_of_table hs hp hq hc ha, hl⟩
  have hexs : ∀ n, Clocked tp m (twoddwaveHexClocking tp n) := by
    intro n
    cases tp with
    | cart => exact byTab _ twoDD4 4 4 (by decide) (by decide) (fun _ => rfl) 4 rfl (by decide) (fun _ => cyc ⟨n, Or.inr (Or.inr (Or.inl rfl))⟩)
    | hex a =>
      refine ⟨hs, ?_, alive_hex hs, fun _ => cyc ⟨n, Or.inr (Or.inr (Or.inl rfl))⟩⟩
      intro c
      cases a <;> cases n <;> rfl
  have hm := get_mem hget
  simp only [schemeLookup, List.mem_cons, Prod.mk.injEq, List.not_mem_nil, or_false] at hm
  rcases hm with ⟨-, rfl⟩ | ⟨-, rfl⟩ | ⟨-, rfl⟩ | ⟨-, rfl⟩ | ⟨-, rfl⟩ | ⟨-, rfl⟩ | ⟨-, rfl⟩ | ⟨-, rfl⟩ | ⟨-, rfl⟩ | ⟨-, rfl⟩ | ⟨hn, rfl⟩ |
    ⟨-, rfl⟩ | ⟨-, rfl⟩ | ⟨-, rfl⟩ | ⟨-, rfl⟩ | ⟨-, rfl⟩ | ⟨-, rfl⟩ | ⟨-, rfl⟩ | ⟨-, rfl⟩ | ⟨-, rfl⟩ | ⟨-, rfl⟩ | ⟨-, rfl⟩
  · cases hr
  · cases hr
  · cases hr
  · exact byTab _ columnar4 4 4 (by decide) (by decide) (fun _ => rfl) 4 rfl (by decide) (fun _ => cyc ⟨.four, Or.inl rfl⟩)
  · exact byTab _ columnar3 3 3 (by decide) (by decide) (fun _ => rfl) 3 rfl (by decide) (fun _ => cyc ⟨.three, Or.inl rfl⟩)
  · exact byTab _ columnar4 4 4 (by decide) (by decide) (fun _ => rfl) 4 rfl (by decide) (fun _ => cyc ⟨.four, Or.inl rfl⟩)
  · exact byTab _ row4 4 4 (by decide) (by decide) (fun _ => rfl) 4 rfl (by decide) (fun _ => cyc ⟨.four, Or.inr (Or.inl rfl)⟩)
  · exact byTab _ row3 3 3 (by decide) (by decide) (fun _ => rfl) 3 rfl (by decide) (fun _ => cyc ⟨.three, Or.inr (Or.inl rfl)⟩)
  · exact byTab _ row4 4 4 (by decide) (by decide) (fun _ => rfl) 4 rfl (by decide) (fun _ => cyc ⟨.four, Or.inr (Or.inl rfl)⟩)
  · exact byTab _ twoDD4 4 4 (by decide) (by decide) (fun _ => rfl) 4 rfl (by decide) (fun _ => cyc ⟨.four, Or.inr (Or.inr (Or.inr rfl))⟩)
  · refine byTab _ twoDD3 3 3 (by decide) (by decide) (fun _ => rfl) 3 rfl (by decide) (fun _ t => ?_)
    cases tp with
    | cart => exact C12_cartesian_acyclic m .three _ (Or.inr (Or.inr (Or.inl rfl))) t
    | hex a => exact absurd hn (hnot (by intro h; cases h))
  · exact byTab _ twoDD4 4 4 (by decide) (by decide) (fun _ => rfl) 4 rfl (by decide) (fun _ => cyc ⟨.four, Or.inr (Or.inr (Or.inr rfl))⟩)
  · exact hexs .four
  · exact hexs .three
  · exact hexs .four
  · exact byTab _ useTable 4 4 (by decide) (by decide) (fun _ => rfl) 4 rfl (by decide) (fun h => absurd h (by simp [isLinearScheme, useClocking]))
  · exact byTab _ resTable 4 4 (by decide) (by decide) (fun _ => rfl) 4 rfl (by decide) (fun h => absurd h (by simp [isLinearScheme, resClocking]))
  · exact byTab _ esrTable 4 4 (by decide) (by decide) (fun _ => rfl) 4 rfl (by decide) (fun h => absurd h (by simp [isLinearScheme, esrClocking]))
  · exact byTab _ cfeTable 4 4 (by decide) (by decide) (fun _ => rfl) 4 rfl (by decide) (fun h => absurd h (by simp [isLinearScheme, cfeClocking]))
  · exact byTab _ rippleTable 4 4 (by decide) (by decide) (fun _ => rfl) 4 rfl (by decide)
      (fun h => absurd h (by simp [isLinearScheme, rippleClocking]))
  · exact byTab _ srsTable 4 4 (by decide) (by decide) (fun _ => rfl) 4 rfl (by decide) (fun h => absurd h (by simp [isLinearScheme, srsClocking]))
  · exact byTab _ bancsTable 6 3 (by decide) (by decide) (fun _ => rfl) 3 rfl (by decide)
      (fun h => absurd h (by simp [isLinearScheme, bancsClocking]))

end Verif.PhysicalDesign.Exact
