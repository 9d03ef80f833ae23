import Verif.Paths.DistMap
import Verif.Layouts.CartesianProps

/-!
# Properties of distance maps and caches
-/
namespace Verif.DistMap
open Layouts

variable {D Lyt : Type}

theorem mem_coords {m : Dim} {c : Coord} : c ∈ coords m ↔ InBounds m c := by
  unfold coords InBounds
  simp only [List.mem_flatMap, List.mem_range, List.mem_map]
  constructor
  · rintro ⟨z, hz, y, hy, x, hx, rfl⟩
    exact ⟨rfl, by simp only; omega, by simp only; omega, by simp only; omega⟩
  · rintro ⟨h1, h2, h3, h4⟩
    exact ⟨c.z, by omega, c.y, by omega, c.x, by omega, by rw [← h1]⟩

theorem length_rows {α : Type} (w : Nat) (g : Nat → Nat → α) (n : Nat) : ((List.range n).flatMap fun y => (List.range w).map (g y)).length = n * w := by
  induction n with
  | zero => simp
  | succ n ih => rw [List.range_succ, List.flatMap_append, List.length_append, ih]; simp [Nat.succ_mul]

theorem get_rows {α : Type} (w : Nat) (g : Nat → Nat → α) (n : Nat) {x y : Nat} (hx : x < w) (hy : y < n) :
    ((List.range n).flatMap fun y => (List.range w).map (g y))[y * w + x]? = some (g y x) := by
  induction n with
  | zero => omega
  | succ n ih =>
    rw [List.range_succ, List.flatMap_append]
    rcases Nat.lt_or_ge y n with h | h
    · rw [List.getElem?_append_left]
      · exact ih h
      · rw [length_rows]
        have : (y + 1) * w ≤ n * w := Nat.mul_le_mul_right w h
        rw [Nat.succ_mul] at this
        omega
    · obtain rfl : y = n := by omega
      rw [List.getElem?_append_right (by rw [length_rows]; omega), length_rows]
      simp [List.getElem?_range, hx]

theorem length_coords (m : Dim) : (coords m).length = (m.Z + 1) * area m := by
  unfold coords area
  induction m.Z + 1 with
  | zero => simp
  | succ n ih =>
    rw [List.range_succ (n := n), List.flatMap_append, List.length_append, ih, Nat.succ_mul n, List.flatMap_singleton, length_rows, Nat.mul_comm (m.Y + 1)]

theorem get_coords {m : Dim} (hz : m.Z = 0) {c : Coord} (hc : InBounds m c) : (coords m)[index m c]? = some c := by
  obtain ⟨h1, h2, h3, h4⟩ := hc
  unfold coords index
  rw [hz, Nat.zero_add, List.range_one, List.flatMap_singleton, get_rows (m.X + 1) (fun y x => (⟨x, y, 0, false⟩ : Coord)) (m.Y + 1) (Nat.lt_succ_of_le h2) (Nat.lt_succ_of_le h3)]
  obtain ⟨x, y, z, d⟩ := c
  simp only at h1 h4
  rw [h1, show z = 0 by omega]

theorem inner_fold (f : Coord → D) (i : Nat) (suffix : List Coord) : ∀ (M : List (List D)) (pre rest : List D), M[i]? = some (pre ++ rest) → rest.length = suffix.length →
    (suffix.zipIdx pre.length).foldl (fun acc y => acc.bind fun M => setAt M i y.2 (f y.1)) (some M) = some (M.set i (pre ++ suffix.map f)) := by
  induction suffix with
  | nil =>
    intro M pre rest h hl
    obtain rfl := List.length_eq_zero_iff.1 hl
    obtain ⟨hi, e⟩ := List.getElem?_eq_some_iff.1 h
    rw [List.zipIdx_nil, List.foldl_nil, List.map_nil, ← e, List.set_getElem_self]
  | cons c suffix ih =>
    intro M pre rest h hl
    obtain ⟨r, rest, rfl⟩ : ∃ r rest', rest = r :: rest' := by
      cases rest with
      | nil => simp at hl
      | cons r rest => exact ⟨r, rest, rfl⟩
    obtain ⟨hi, -⟩ := List.getElem?_eq_some_iff.1 h
    rw [List.zipIdx_cons, List.foldl_cons, Option.bind_some]
    have e : setAt M i pre.length (f c) = some (M.set i ((pre ++ [f c]) ++ rest)) := by
      unfold setAt
      rw [h]
      simp only [List.length_append, List.length_cons]
      rw [if_pos (by omega), List.set_append_right _ _ (Nat.le_refl _), Nat.sub_self, List.set_cons_zero]
      simp
    rw [e]
    have := ih (M.set i ((pre ++ [f c]) ++ rest)) (pre ++ [f c]) rest (List.getElem?_set_self hi) (by simpa using hl)
    rw [List.length_append, List.length_singleton] at this
    rw [this, List.set_set, List.map_cons]
    simp

theorem outer_fold (dist : Coord → Coord → D) (L : List Coord) (suffix : List Coord) : ∀ (pre rest : List (List D)), rest.length = suffix.length → (∀ row ∈ rest, row.length = L.length) →
    (suffix.zipIdx pre.length).foldl (fun acc x => L.zipIdx.foldl (fun acc y => acc.bind fun M => setAt M x.2 y.2 (dist x.1 y.1)) acc) (some (pre ++ rest)) =
      some (pre ++ suffix.map fun a => L.map (dist a)) := by
  induction suffix with
  | nil =>
    intro pre rest hl _
    obtain rfl := List.length_eq_zero_iff.1 hl
    rfl
  | cons c suffix ih =>
    intro pre rest hl hr
    obtain ⟨r, rest, rfl⟩ : ∃ r rest', rest = r :: rest' := by
      cases rest with
      | nil => simp at hl
      | cons r rest => exact ⟨r, rest, rfl⟩
    rw [List.zipIdx_cons, List.foldl_cons]
    have h1 : (pre ++ r :: rest)[pre.length]? = some ([] ++ r) := by simp
    have := inner_fold (dist c) pre.length L (pre ++ r :: rest) [] r h1 (hr r List.mem_cons_self)
    simp only [List.length_nil] at this
    rw [this, List.set_append_right _ _ (Nat.le_refl _), Nat.sub_self, List.set_cons_zero, List.nil_append]
    have h2 := ih (pre ++ [L.map (dist c)]) rest (by simpa using hl) fun row hrow => hr row (List.mem_cons_of_mem _ hrow)
    rw [List.length_append, List.length_singleton] at h2
    rw [List.map_cons]
    simpa using h2

/-- **C75** (maps) The distance map of a layout with one layer gives the distance of any two of its coordinates. -/
theorem C75_map_partial (z0 : D) {m : Dim} (hz : m.Z = 0) (dist : Coord → Coord → D) : ∃ M, initMap z0 m dist = some M ∧
    ∀ a b, InBounds m a → InBounds m b → lookup M m a b = some (dist a b) := by
  have hlen : (coords m).length = area m := by rw [length_coords, hz]; simp
  have := outer_fold dist (coords m) (coords m) [] (List.replicate (area m) (List.replicate (area m) z0)) (by simp [hlen]) (by
    intro row hrow
    rw [List.eq_of_mem_replicate hrow, List.length_replicate, hlen])
  refine ⟨_, this, fun a b ha hb => ?_⟩
  unfold lookup
  rw [List.nil_append, List.getElem?_map, get_coords hz ha, Option.map_some, Option.bind_some, List.getElem?_map, get_coords hz hb, Option.map_some]

example : ∃ (z0 : Nat) (m : Dim), m.Z = 0 ∧ InBounds m ⟨2, 1, 0, false⟩ ∧ (initMap z0 m fun a b => 10 * a.x + b.y).bind (fun M => lookup M m ⟨2, 1, 0, false⟩ ⟨0, 2, 0, false⟩) = some 22 :=
  ⟨0, ⟨2, 2, 0⟩, rfl, by decide, by decide +kernel⟩

theorem setAt_length {M M' : List (List D)} {i j : Nat} {d : D} (h : setAt M i j d = some M') : M'.length = M.length := by
  unfold setAt at h
  split at h
  · cases h
  · split at h
    · rw [← Option.some.inj h, List.length_set]
    · cases h

/-- **C75** is false of layouts with several layers, such as all gate-level layouts with crossings: the map is written beyond its end. -/
theorem C75_false_layers (z0 : D) (m : Dim) (hz : 0 < m.Z) (dist : Coord → Coord → D) : initMap z0 m dist = none := by
  have hlen : area m < (coords m).length := by
    rw [length_coords, Nat.succ_mul]
    have h1 : 1 ≤ area m := Nat.mul_pos (Nat.succ_pos _) (Nat.succ_pos _)
    have h2 : 1 * area m ≤ m.Z * area m := Nat.mul_le_mul_right _ hz
    omega
  have stay : ∀ (i : Nat) (c : Coord) (l : List (Coord × Nat)), l.foldl (fun acc y => acc.bind fun M => setAt M i y.2 (dist c y.1)) (none : Option (List (List D))) = none := by
    intro i c l
    induction l with
    | nil => rfl
    | cons x l ih => exact ih
  have inner : ∀ (i : Nat) (c : Coord) (l : List (Coord × Nat)) (acc : Option (List (List D))), (∀ M, acc = some M → M.length = area m) →
      ∀ M, l.foldl (fun acc y => acc.bind fun M => setAt M i y.2 (dist c y.1)) acc = some M → M.length = area m := by
    intro i c l
    induction l with
    | nil => intro acc h M e; exact h M e
    | cons x l ih =>
      intro acc h M e
      refine ih _ ?_ M e
      intro M' e'
      obtain ⟨M0, e0, e1⟩ := Option.bind_eq_some_iff.1 e'
      rw [setAt_length e1]
      exact h M0 e0
  have outer : ∀ (L : List (Coord × Nat)) (l : List (Coord × Nat)) (acc : Option (List (List D))), (∀ M, acc = some M → M.length = area m) →
      ∀ M, l.foldl (fun acc x => L.foldl (fun acc y => acc.bind fun M => setAt M x.2 y.2 (dist x.1 y.1)) acc) acc = some M → M.length = area m := by
    intro L l
    induction l with
    | nil => intro acc h M e; exact h M e
    | cons x l ih =>
      intro acc h M e
      exact ih _ (inner x.2 x.1 L acc h) M e
  have stay' : ∀ (L l : List (Coord × Nat)), l.foldl (fun acc x => L.foldl (fun acc y => acc.bind fun M => setAt M x.2 y.2 (dist x.1 y.1)) acc) (none : Option (List (List D))) = none := by
    intro L l
    induction l with
    | nil => rfl
    | cons x l ih => rw [List.foldl_cons, stay]; exact ih
  have hmem : ((coords m)[area m]'hlen, area m) ∈ (coords m).zipIdx := List.mk_mem_zipIdx_iff_getElem?.2 (List.getElem?_eq_getElem hlen)
  obtain ⟨l1, l2, e⟩ := List.append_of_mem hmem
  unfold initMap
  generalize hL : (coords m).zipIdx = L at e ⊢
  have hne : ∃ x L', L = x :: L' := by
    cases L with
    | nil => rw [List.zipIdx_eq_nil_iff] at hL; rw [hL] at hlen; simp at hlen
    | cons x L' => exact ⟨x, L', rfl⟩
  have split : ∀ acc : Option (List (List D)), L.foldl (fun acc x => L.foldl (fun acc y => acc.bind fun M => setAt M x.2 y.2 (dist x.1 y.1)) acc) acc =
      l2.foldl (fun acc x => L.foldl (fun acc y => acc.bind fun M => setAt M x.2 y.2 (dist x.1 y.1)) acc)
        (L.foldl (fun acc y => acc.bind fun M => setAt M (area m) y.2 (dist (coords m)[area m] y.1))
          (l1.foldl (fun acc x => L.foldl (fun acc y => acc.bind fun M => setAt M x.2 y.2 (dist x.1 y.1)) acc) acc)) := by
    intro acc
    conv => lhs; arg 3; rw [e]
    rw [List.foldl_append, List.foldl_cons]
  rw [split]
  have hpre := outer L l1 (some (List.replicate (area m) (List.replicate (area m) z0))) (by
    intro M e
    rw [← Option.some.inj e, List.length_replicate])
  have hnone : L.foldl (fun acc y => acc.bind fun M => setAt M (area m) y.2 (dist (coords m)[area m] y.1))
      (l1.foldl (fun acc x => L.foldl (fun acc y => acc.bind fun M => setAt M x.2 y.2 (dist x.1 y.1)) acc) (some (List.replicate (area m) (List.replicate (area m) z0)))) = none := by
    obtain ⟨x, L', hx⟩ := hne
    cases hacc : l1.foldl (fun acc x => L.foldl (fun acc y => acc.bind fun M => setAt M x.2 y.2 (dist x.1 y.1)) acc) (some (List.replicate (area m) (List.replicate (area m) z0))) with
    | none => exact stay _ _ L
    | some M =>
      have hM := hpre M hacc
      rw [hx, List.foldl_cons, Option.bind_some]
      have : setAt M (area m) x.2 (dist (coords m)[area m] x.1) = none := by
        unfold setAt
        rw [List.getElem?_eq_none (by omega)]
      rw [this]
      exact stay _ _ L'
  rw [hnone]
  exact stay' L l2

/-- **C75** is false of coordinates beyond the layout: instead of an error, the map gives the distance of another pair. -/
theorem C75_false_beyond : ∃ (m : Dim) (M : List (List Nat)) (dist : Coord → Coord → Nat), m.Z = 0 ∧ initMap 0 m dist = some M ∧ ¬ InBounds m ⟨2, 0, 0, false⟩ ∧
    lookup M m ⟨2, 0, 0, false⟩ ⟨0, 0, 0, false⟩ = some (dist ⟨0, 1, 0, false⟩ ⟨0, 0, 0, false⟩) ∧
    dist ⟨2, 0, 0, false⟩ ⟨0, 0, 0, false⟩ ≠ dist ⟨0, 1, 0, false⟩ ⟨0, 0, 0, false⟩ := by
  obtain ⟨M, e, h⟩ := C75_map_partial 0 (m := ⟨1, 1, 0⟩) rfl (fun a b => (a.x - b.x) + (a.y - b.y))
  refine ⟨⟨1, 1, 0⟩, M, fun a b => (a.x - b.x) + (a.y - b.y), rfl, e, by decide, ?_, by decide⟩
  exact h ⟨0, 1, 0, false⟩ ⟨0, 0, 0, false⟩ (by decide) (by decide)

/-- **C75** (sparse maps) The sparse map gives the distance of any two coordinates of a layout, on all layers, and throws for others. -/
theorem C75_sparse (m : Dim) (dist : Coord → Coord → D) (a b : Coord) :
    sparseLookup (initSparse m dist) a b = if InBounds m a ∧ InBounds m b then some (dist a b) else none := by
  have inner : ∀ (c : Coord) (l : List Coord) (M : Coord × Coord → Option D), l.foldl (fun M b p => if p = (c, b) then some (dist c b) else M p) M (a, b) =
      if a = c ∧ b ∈ l then some (dist a b) else M (a, b) := by
    intro c l
    induction l with
    | nil => intro M; simp
    | cons x l ih =>
      intro M
      rw [List.foldl_cons, ih]
      by_cases h1 : a = c <;> by_cases h2 : b = x <;> by_cases h3 : b ∈ l <;> simp_all
  have outer : ∀ (L l : List Coord) (M : Coord × Coord → Option D),
      l.foldl (fun M a => L.foldl (fun M b p => if p = (a, b) then some (dist a b) else M p) M) M (a, b) = if a ∈ l ∧ b ∈ L then some (dist a b) else M (a, b) := by
    intro L l
    induction l with
    | nil => intro M; simp
    | cons x l ih =>
      intro M
      rw [List.foldl_cons, ih, inner]
      by_cases h1 : a = x <;> by_cases h2 : a ∈ l <;> by_cases h3 : b ∈ L <;> simp_all
  unfold sparseLookup initSparse
  rw [outer]
  simp only [mem_coords]

/-- **C75** (caches) The answer to a call of the cache is the distance in the layout that the first call with the same coordinates was made for. -/
theorem C75_cache_exact (dist : Lyt → Coord → Coord → D) (calls : List (Lyt × Coord × Coord)) (i : Nat) (l : Lyt) (a b : Coord) (hi : calls[i]? = some (l, a, b)) :
    ∃ j l', j ≤ i ∧ calls[j]? = some (l', a, b) ∧ (∀ k < j, ∀ l'', calls[k]? ≠ some (l'', a, b)) ∧ (answers dist (fun _ => none) calls)[i]? = some (dist l' a b) := by
  have key : ∀ (calls : List (Lyt × Coord × Coord)) (M : Coord × Coord → Option D) (i : Nat) (l : Lyt), calls[i]? = some (l, a, b) →
      (∀ d, M (a, b) = some d → (answers dist M calls)[i]? = some d) ∧
      (M (a, b) = none → ∃ j l', j ≤ i ∧ calls[j]? = some (l', a, b) ∧ (∀ k < j, ∀ l'', calls[k]? ≠ some (l'', a, b)) ∧ (answers dist M calls)[i]? = some (dist l' a b)) := by
    intro calls
    induction calls with
    | nil => intro M i l h; simp at h
    | cons c calls ih =>
      intro M i l hi
      obtain ⟨l0, a0, b0⟩ := c
      have e : answers dist M ((l0, a0, b0) :: calls) = (cached dist M l0 a0 b0).1 :: answers dist (cached dist M l0 a0 b0).2 calls := rfl
      rw [e]
      have hM : ∀ d, M (a, b) = some d → (cached dist M l0 a0 b0).2 (a, b) = some d := by
        intro d hd
        unfold cached
        split
        · exact hd
        · rename_i h0
          show (if (a, b) = (a0, b0) then _ else _) = _
          rw [if_neg (by intro e; rw [← e, hd] at h0; cases h0)]
          exact hd
      cases i with
      | zero =>
        rw [List.getElem?_cons_zero, Option.some.injEq, Prod.mk.injEq, Prod.mk.injEq] at hi
        obtain ⟨rfl, rfl, rfl⟩ := hi
        refine ⟨fun d hd => ?_, fun hn => ⟨0, l0, Nat.le_refl _, rfl, fun k hk => absurd hk (Nat.not_lt_zero _), ?_⟩⟩
        · rw [List.getElem?_cons_zero]
          unfold cached
          rw [hd]
        · rw [List.getElem?_cons_zero]
          unfold cached
          rw [hn]
      | succ i =>
        rw [List.getElem?_cons_succ] at hi
        rw [List.getElem?_cons_succ]
        obtain ⟨h1, h2⟩ := ih (cached dist M l0 a0 b0).2 i l hi
        refine ⟨fun d hd => h1 d (hM d hd), fun hn => ?_⟩
        by_cases heq : (a, b) = (a0, b0)
        · refine ⟨0, l0, Nat.zero_le _, by rw [Prod.mk.injEq] at heq; rw [heq.1, heq.2]; rfl, fun k hk => absurd hk (Nat.not_lt_zero _), ?_⟩
          refine h1 _ ?_
          unfold cached
          rw [← heq, hn]
          rw [Prod.mk.injEq] at heq
          simp [heq.1, heq.2]
        · have hn' : (cached dist M l0 a0 b0).2 (a, b) = none := by
            unfold cached
            split
            · exact hn
            · show (if (a, b) = (a0, b0) then _ else _) = _
              rw [if_neg heq]
              exact hn
          obtain ⟨j, l', k1, k2, k3, k4⟩ := h2 hn'
          refine ⟨j + 1, l', by omega, by rw [List.getElem?_cons_succ]; exact k2, ?_, k4⟩
          intro k hk l'' hc
          cases k with
          | zero =>
            rw [List.getElem?_cons_zero, Option.some.injEq, Prod.mk.injEq] at hc
            exact heq hc.2.symm
          | succ k =>
            rw [List.getElem?_cons_succ] at hc
            exact k3 k (by omega) l'' hc
  exact (key calls (fun _ => none) i l hi).2 rfl

/-- **C75** (caches) As long as the cache is used for one layout, which does not change, it gives the distances. -/
theorem C75_cache_partial (dist : Lyt → Coord → Coord → D) (l : Lyt) (calls : List (Coord × Coord)) :
    answers dist (fun _ => none) (calls.map fun p => (l, p.1, p.2)) = calls.map fun p => dist l p.1 p.2 := by
  have hlen : ∀ (cs : List (Lyt × Coord × Coord)) (M : Coord × Coord → Option D), (answers dist M cs).length = cs.length := by
    intro cs
    induction cs with
    | nil => intro M; rfl
    | cons c cs ih =>
      intro M
      show (_ :: answers dist _ cs).length = _
      rw [List.length_cons, ih, List.length_cons]
  apply List.ext_getElem?
  intro i
  rw [List.getElem?_map]
  cases hi : calls[i]? with
  | none =>
    rw [Option.map_none, List.getElem?_eq_none]
    rw [hlen, List.length_map]
    exact List.getElem?_eq_none_iff.1 hi
  | some p =>
    obtain ⟨j, l', -, h2, -, h4⟩ := C75_cache_exact dist (calls.map fun p => (l, p.1, p.2)) i l p.1 p.2 (by rw [List.getElem?_map, hi]; rfl)
    rw [List.getElem?_map] at h2
    obtain ⟨q, -, e⟩ := Option.map_eq_some_iff.1 h2
    rw [Prod.mk.injEq] at e
    rw [h4, ← e.1]
    rfl

/-- **C75** is false of a cache that is used while the layout changes, for instance by placing obstructions: it keeps answering with old distances. -/
theorem C75_false_stale : ∃ (dist : Bool → Coord → Coord → Nat) (a b : Coord),
    answers dist (fun _ => none) [(false, a, b), (true, a, b)] ≠ [dist false a b, dist true a b] :=
  ⟨fun l _ _ => if l then 7 else 5, ⟨0, 0, 0, false⟩, ⟨1, 1, 0, false⟩, by decide⟩

end Verif.DistMap
