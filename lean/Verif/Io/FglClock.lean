import Verif.Io.FglProps
import Verif.Layouts.CartesianProps

/-!
# The clocking and the order of the elements of FGL files
-/
namespace Verif.Fgl

open Verif.Layouts Verif.Clocking Verif.GateLevel Verif.TruthTables Verif.PhysicalDesign

theorem scheme_facts (tp : Topo) (name : List Char) {cs : Scheme} (h : getClockingScheme tp name = some cs) :
    (∀ c, cs.override c = none) ∧ (cs.numClocks = 3 ∨ cs.numClocks = 4) := by
  have hm := get_mem h
  unfold schemeLookup at hm
  simp only [List.mem_cons, List.not_mem_nil, or_false, Prod.mk.injEq] at hm
  rcases hm with h | h | h | h | h | h | h | h | h | h | h | h | h | h | h | h | h | h | h | h | h | h <;>
    (obtain ⟨-, rfl⟩ := h; cases tp <;> exact ⟨fun _ => rfl, by first | exact Or.inl rfl | exact Or.inr rfl⟩)

theorem scheme_name (tp : Topo) (name : List Char) {cs : Scheme} (h : getClockingScheme tp name = some cs) : blank name = false := by
  cases hb : blank name with
  | false => rfl
  | true =>
    exfalso
    have hm := get_mem h
    have key : ∀ p ∈ schemeLookup tp, ∃ c ∈ p.1, 'A' ≤ c ∧ c ≤ 'Z' := by
      intro p hp
      have : p.1 ∈ (schemeLookup tp).map Prod.fst := List.mem_map_of_mem hp
      have e : (schemeLookup tp).map Prod.fst = (schemeLookup .cart).map Prod.fst := rfl
      rw [e] at this
      revert this
      generalize p.1 = l
      revert l
      decide +kernel
    obtain ⟨c, hc, h1⟩ := key _ hm
    simp only [List.mem_map] at hc
    obtain ⟨d, hd, rfl⟩ := hc
    unfold blank at hb
    rw [List.all_eq_true] at hb
    have hs := hb d hd
    unfold isSpace at hs
    simp only [List.mem_cons, List.not_mem_nil, or_false, decide_eq_true_eq] at hs
    rcases hs with rfl | rfl | rfl | rfl | rfl | rfl <;> exact absurd h1 (by decide)

/-- **C71** (regular clocking) The clocking scheme of a layout that has one of the named schemes, unchanged, is read back. -/
theorem C71_clocking_regular (tp : Topo) (L : Lyt) (order : List Nat) (hr : L.cs.regular = true)
    (hn : getClockingScheme tp L.cs.name.toList = some L.cs) : readClocking tp (write tp L order) = some L.cs := by
  unfold readClocking
  have hz : (write tp L order).zones = none := by simp [write, hr]
  have hs : (write tp L order).scheme = L.cs.name.toList := rfl
  rw [hs, hz, hn, scheme_name tp _ hn]
  simp only [Bool.false_eq_true, if_false]
  rw [if_neg]
  intro hc
  simp only [List.mem_cons, List.not_mem_nil, or_false] at hc
  have open4 : ∀ s : List Char, (s = "OPEN".toList ∨ s = "OPEN3".toList ∨ s = "OPEN4".toList) → (getClockingScheme tp s).map Scheme.regular = some false := by
    rintro s (rfl | rfl | rfl) <;> cases tp <;> rfl
  have := open4 _ hc
  rw [hn, Option.map_some, hr] at this
  cases this

/-- The loop over the zones. -/
theorem zones_fold (g : Nat × Nat × List Char → Nat) : ∀ (zs : List (Nat × Nat × List Char)) (cs : Scheme), cs.regular = false ∨ zs ≠ [] →
    let cs' := zs.foldl (fun cs z => cs.overrideClockNumber ⟨z.1, z.2.1, 0, false⟩ (g z)) cs
    cs'.regular = false ∧ cs'.numClocks = cs.numClocks ∧ cs'.fn = cs.fn ∧
      ∀ c, (cs'.override c = cs.override c ∧ ∀ z ∈ zs, c ≠ ⟨z.1, z.2.1, 0, false⟩) ∨
        ∃ z ∈ zs, c = ⟨z.1, z.2.1, 0, false⟩ ∧ cs'.override c = some (g z % cs.numClocks)
  | [], cs, h => by
    refine ⟨h.resolve_right (by simp), rfl, rfl, fun c => Or.inl ⟨rfl, by simp⟩⟩
  | z :: zs, cs, _ => by
    obtain ⟨h1, h2, h3, h4⟩ := zones_fold g zs (cs.overrideClockNumber ⟨z.1, z.2.1, 0, false⟩ (g z)) (Or.inl rfl)
    refine ⟨h1, h2, h3, fun c => ?_⟩
    rcases h4 c with ⟨h5, h6⟩ | ⟨z', hz', h5, h6⟩
    · by_cases hc : c = ⟨z.1, z.2.1, 0, false⟩
      · right
        refine ⟨z, by simp, hc, ?_⟩
        rw [List.foldl_cons, h5]
        simp [Scheme.overrideClockNumber, hc]
      · left
        refine ⟨?_, ?_⟩
        · rw [List.foldl_cons, h5]
          simp [Scheme.overrideClockNumber, hc]
        · intro z' hz'
          rcases List.mem_cons.1 hz' with rfl | hz'
          · exact hc
          · exact h6 z' hz'
    · right
      exact ⟨z', by simp [hz'], h5, h6⟩

theorem writeZones_mem {m : Dim} {cs : Scheme} {z : Nat × Nat × List Char} : z ∈ writeZones m cs ↔
    z.1 ≤ m.X ∧ z.2.1 ≤ m.Y ∧ z.2.2 = Nat.toDigits 10 (cs.clock ⟨z.1, z.2.1, 0, false⟩) := by
  unfold writeZones
  simp only [List.mem_flatMap, List.mem_range, List.mem_map]
  constructor
  · rintro ⟨x, hx, y, hy, rfl⟩
    exact ⟨by simp only; omega, by simp only; omega, rfl⟩
  · rintro ⟨h1, h2, h3⟩
    obtain ⟨x, y, t⟩ := z
    simp only at h1 h2 h3
    exact ⟨x, by omega, y, by omega, by rw [h3]⟩

/-- **C71** (irregular clocking) If a layout has clock numbers of its own, those of the ground layer are read back. Everything else is clocked by the named
scheme, without changes; in particular all other layers are. -/
theorem C71_clocking_irregular (tp : Topo) (L : Lyt) (order : List Nat) (base : Scheme) (hr : L.cs.regular = false)
    (hn : getClockingScheme tp L.cs.name.toList = some base) (hb : base.numClocks = L.cs.numClocks) (hlt : ∀ c, L.cs.clock c < L.cs.numClocks) :
    ∃ cs', readClocking tp (write tp L order) = some cs' ∧ cs'.numClocks = L.cs.numClocks ∧
      (∀ x y, x ≤ L.dim.X → y ≤ L.dim.Y → cs'.clock ⟨x, y, 0, false⟩ = L.cs.clock ⟨x, y, 0, false⟩) ∧
      ∀ c : Coord, ¬ (c.x ≤ L.dim.X ∧ c.y ≤ L.dim.Y ∧ c.z = 0 ∧ c.d = false) → cs'.clock c = base.fn c := by
  obtain ⟨ho, hk⟩ := scheme_facts tp _ hn
  have hz : (write tp L order).zones = some (writeZones L.dim L.cs) := by simp [write, hr]
  have hs : (write tp L order).scheme = L.cs.name.toList := rfl
  have hdig : ∀ d : Nat, d < 4 → blank (Nat.toDigits 10 d) = false ∧ ((Nat.toDigits 10 d).head?.getD ' ').toNat % 256 = 48 + d := by decide +kernel
  have h4 : ∀ c, L.cs.clock c < 4 := fun c => by have := hlt c; omega
  have hany : (writeZones L.dim L.cs).any (fun z => blank z.2.2) = false := by
    rw [List.any_eq_false]
    intro z hz
    rw [(writeZones_mem.1 hz).2.2, (hdig _ (h4 _)).1]
    decide
  have hne : writeZones L.dim L.cs ≠ [] := by
    intro hc
    have : ((0, 0, Nat.toDigits 10 (L.cs.clock ⟨0, 0, 0, false⟩)) : Nat × Nat × List Char) ∈ writeZones L.dim L.cs :=
      writeZones_mem.2 ⟨Nat.zero_le _, Nat.zero_le _, rfl⟩
    rw [hc] at this
    cases this
  obtain ⟨z1, z2, z3, z4⟩ := zones_fold (fun z => (z.2.2.head?.getD ' ').toNat % 256) (writeZones L.dim L.cs) base (Or.inr hne)
  refine ⟨(writeZones L.dim L.cs).foldl (fun cs z => cs.overrideClockNumber ⟨z.1, z.2.1, 0, false⟩ ((z.2.2.head?.getD ' ').toNat % 256)) base,
    ?_, ?_, ?_, ?_⟩
  · unfold readClocking
    rw [hs, hz, hn, scheme_name tp _ hn]
    simp only [Bool.false_eq_true, if_false]
    rw [hany]
    rfl
  · rw [z2, hb]
  · intro x y hx hy
    rcases z4 ⟨x, y, 0, false⟩ with ⟨-, h⟩ | ⟨z, hz, e, h⟩
    · exact absurd rfl (h (x, y, Nat.toDigits 10 (L.cs.clock ⟨x, y, 0, false⟩)) (writeZones_mem.2 ⟨hx, hy, rfl⟩))
    · unfold Scheme.clock
      rw [z1, h]
      simp only [Bool.false_eq_true, if_false]
      rw [(writeZones_mem.1 hz).2.2, (hdig _ (h4 _)).2]
      rw [← e]
      show (48 + L.cs.clock ⟨x, y, 0, false⟩) % base.numClocks = L.cs.clock ⟨x, y, 0, false⟩
      have := hlt ⟨x, y, 0, false⟩
      rcases hk with hk | hk <;> rw [hk] <;> omega
  · intro c hc
    rcases z4 c with ⟨h, -⟩ | ⟨z, hz, e, h⟩
    · unfold Scheme.clock
      rw [z1, h, ho c, z3]
      rfl
    · obtain ⟨e1, e2, -⟩ := writeZones_mem.1 hz
      exact absurd ⟨by rw [e]; exact e1, by rw [e]; exact e2, by rw [e], by rw [e]⟩ hc

/-! ## The order of the elements -/

/-- **C71** (order of the elements) The order of the gates in the file does not matter as long as no two have the same number. -/
theorem C71_order (tp : Topo) (title : List Char) (F : File) (gates : List Rec) (hp : gates.Perm F.gates) (hn : (F.gates.map Rec.id).Nodup) :
    read tp title { F with gates := gates } = read tp title F := by
  have hsort : gates.mergeSort (fun a b => decide (a.id ≤ b.id)) = F.gates.mergeSort (fun a b => decide (a.id ≤ b.id)) := by
    have tot : ∀ a b : Rec, (decide (a.id ≤ b.id) || decide (b.id ≤ a.id)) = true := by
      intro a b
      rw [Bool.or_eq_true, decide_eq_true_iff, decide_eq_true_iff]
      omega
    have trans : ∀ a b c : Rec, decide (a.id ≤ b.id) = true → decide (b.id ≤ c.id) = true → decide (a.id ≤ c.id) = true := by
      intro a b c
      simp only [decide_eq_true_iff]
      omega
    refine List.Perm.eq_of_pairwise ?_ (List.pairwise_mergeSort trans tot gates) (List.pairwise_mergeSort trans tot F.gates)
      ((List.mergeSort_perm _ _).trans (hp.trans (List.mergeSort_perm _ _).symm))
    intro a b ha hb h1 h2
    rw [decide_eq_true_iff] at h1 h2
    exact List.inj_on_of_nodup_map hn (hp.subset ((List.mergeSort_perm _ _).subset ha)) ((List.mergeSort_perm _ _).subset hb) (by omega)
  have hall : gates.all Rec.readable = F.gates.all Rec.readable := by
    rw [Bool.eq_iff_iff, List.all_eq_true, List.all_eq_true]
    exact ⟨fun h r hr => h r (hp.symm.subset hr), fun h r hr => h r (hp.subset hr)⟩
  unfold read
  simp only [hsort, hall]
  rfl

/-! ## Three-phase schemes

Their names are those of the four-phase schemes, and they are read back as such. -/

/-- **C71** (three phases) Data flows as before on Cartesian layouts with the three-phase versions of the linear schemes, although they are read back with
four phases. -/
theorem C71_clocking_three (L : Lyt) (order : List Nat) (H : Writable .cart L order)
    (hb : ∀ t n, t.d = false → L.st.tileNode t = some n → InBounds L.dim t)
    (hn : L.cs = columnarClocking .cart .three ∨ L.cs = rowClocking .cart .three ∨ L.cs = twoddwaveClocking .cart .three) :
    ∃ cs', readClocking .cart (write .cart L order) = some cs' ∧ cs'.numClocks = 4 ∧ SameFlow .cart L order cs' := by
  have front : ∀ n ∈ order, ∀ c ∈ L.reads .cart n, isIncomingClocked L.cs (L.st.getTile n) c = true ∧ L.st.getTile n ≠ c ∧
      (((L.st.getTile n).y = c.y ∧ (c.x + 1 = (L.st.getTile n).x ∨ (L.st.getTile n).x + 1 = c.x)) ∨
        ((L.st.getTile n).x = c.x ∧ (c.y + 1 = (L.st.getTile n).y ∨ (L.st.getTile n).y + 1 = c.y))) := by
    intro n hm c hc
    obtain ⟨⟨t, htd, ht⟩, hrd, -⟩ := H.gate n hm
    obtain ⟨a1, a2⟩ := H.read_adj hm hc
    obtain ⟨-, -, e3⟩ := H.read_node hm hc
    rw [(H.nodeTile ht).2] at a1 a2 ⊢
    have := (C07_adjacent_elevation L.dim t c (hb t n htd ht) (hb c _ (hrd c hc) e3)).1 a1
    refine ⟨a2, ?_, by omega⟩
    rintro rfl
    omega
  have zones : ∀ (base : Scheme) (f : Coord → Nat), getClockingScheme .cart L.cs.name.toList = some base → L.cs.regular = true → base.regular = true →
      base.numClocks = 4 → L.cs.numClocks = 3 → (∀ c, L.cs.fn c = f c % 3) → (∀ c, base.fn c = f c % 4) →
      (∀ a b : Coord, ((a.y = b.y ∧ (b.x + 1 = a.x ∨ a.x + 1 = b.x)) ∨ (a.x = b.x ∧ (b.y + 1 = a.y ∨ a.y + 1 = b.y))) →
        f a = f b ∨ f a = f b + 1 ∨ f b = f a + 1) →
      ∃ cs', readClocking .cart (write .cart L order) = some cs' ∧ cs'.numClocks = 4 ∧ SameFlow .cart L order cs' := by
    intro base f hg hr hr' h4 h3 f3 f4 hf
    refine ⟨base, ?_, h4, ?_⟩
    · unfold readClocking
      have hz : (write .cart L order).zones = none := by simp [write, hr]
      have hs : (write .cart L order).scheme = L.cs.name.toList := rfl
      rw [hs, hz, hg, scheme_name .cart _ hg]
      simp only [Bool.false_eq_true, if_false]
      rw [if_neg]
      intro hc
      simp only [List.mem_cons, List.not_mem_nil, or_false] at hc
      have open4 : ∀ s : List Char, (s = "OPEN".toList ∨ s = "OPEN3".toList ∨ s = "OPEN4".toList) →
          (getClockingScheme .cart s).map Scheme.regular = some false := by
        rintro s (rfl | rfl | rfl) <;> rfl
      have := open4 _ hc
      rw [hg, Option.map_some, hr'] at this
      cases this
    · intro n hm c hc
      obtain ⟨g1, g2, g3⟩ := front n hm c hc
      unfold isIncomingClocked Scheme.clock at g1 ⊢
      rw [if_neg g2, beq_iff_eq, hr, h3, if_pos rfl, if_pos rfl, f3, f3] at g1
      rw [if_neg g2, beq_iff_eq, hr', h4, if_pos rfl, if_pos rfl, f4, f4]
      have := hf _ _ g3
      omega
  rcases hn with h | h | h
  · refine zones (columnarClocking .cart .four) (fun c => c.x) (by rw [h]; rfl) (by rw [h]; rfl) rfl rfl (by rw [h]; rfl)
      (fun c => by rw [h]; exact fn_columnar .cart .three c) (fun c => fn_columnar .cart .four c) (fun a b h => by omega)
  · refine zones (rowClocking .cart .four) (fun c => c.y) (by rw [h]; rfl) (by rw [h]; rfl) rfl rfl (by rw [h]; rfl)
      (fun c => by rw [h]; exact fn_row .cart .three c) (fun c => fn_row .cart .four c) (fun a b h => by omega)
  · refine zones (twoddwaveClocking .cart .four) (fun c => c.x + c.y) (by rw [h]; rfl) (by rw [h]; rfl) rfl rfl (by rw [h]; rfl)
      (fun c => by rw [h]; exact fn_twoddwave .cart .three c) (fun c => fn_twoddwave .cart .four c) (fun a b h => by omega)

/-! ## Round trip -/

/-- **C71** (round trip) A layout that has one of the named clocking schemes, whose outputs need everything on it, and none of them a later one, is read
back as it is. -/
theorem C71_roundtrip (tp : Topo) (L : Lyt) (order : List Nat) (title : List Char) (H : Writable tp L order) (T : TopoView tp L order)
    (hr : L.cs.regular = true) (hn : getClockingScheme tp L.cs.name.toList = some L.cs) (ht : blank L.title = false)
    (hneed : ∀ t n, t.d = false → L.st.tileNode t = some n → n ∉ L.st.inputs → ∃ p ∈ L.st.outputs, Needs tp L (L.st.getNode p) n)
    (hs : ∀ (k k' : Nat) p p', k < k' → L.st.outputs[k]? = some p → L.st.outputs[k']? = some p' → ¬ Needs tp L (L.st.getNode p) (L.st.getNode p')) :
    ∃ R, read tp title (write tp L order) = some R ∧ R.title = L.title ∧ R.dim = L.dim ∧ R.cs = L.cs ∧ R.st.outputs = L.st.outputs ∧
      R.st.inputs.map R.st.getTile = L.st.inputs.map L.st.getTile ∧
      ∀ t, t.d = false →
        (L.st.tileNode t = none ∧ R.st.tileNode t = none) ∨
        ∃ n k, L.st.tileNode t = some n ∧ R.st.tileNode t = some k ∧
          R.cache.lookup (R.st.nodes k).fn = L.cache.lookup (L.st.nodes n).fn ∧ ((L.st.nodes n).fn < 16 → (R.st.nodes k).fn = (L.st.nodes n).fn) ∧
          (n ∉ L.st.inputs → R.reads tp k = L.reads tp n) ∧ ((L.st.isPi n ∨ L.st.isPo n) → R.name k = L.name n) := by
  obtain ⟨R, h1, h2, K, h4⟩ := C71_read H T title (C71_clocking_regular tp L order hr hn) (SameClocks.flow H ⟨rfl, fun _ _ _ _ => rfl⟩)
  refine ⟨R, h1, K.title ht, K.dim, h2, h4.trans (C71_outputs H T hs), K.inputs, ?_⟩
  intro t htd
  cases hL : L.st.tileNode t with
  | none =>
    left
    refine ⟨rfl, ?_⟩
    cases hR : R.st.tileNode t with
    | none => rfl
    | some k =>
      obtain ⟨n, -, hn⟩ := (K.occupied t htd).1 ⟨k, hR⟩
      rw [hL] at hn
      cases hn
  | some n =>
    right
    have hm : n ∈ L.st.inputs ++ order := by
      by_cases hi : n ∈ L.st.inputs
      · exact List.mem_append_left _ hi
      · exact List.mem_append_right _ ((T.mem n).2 ⟨hi, H.two htd hL, hneed t n htd hL hi⟩)
    obtain ⟨k, hk⟩ := (K.occupied t htd).2 ⟨n, hm, hL⟩
    obtain ⟨f1, f2⟩ := K.function t n k htd hL hk
    exact ⟨n, k, rfl, hk, f1, f2, K.reads t n k htd hL hk, K.names t n k htd hL hk⟩

/-- A file is refused by layouts of another topology than that of the layout it was written from. -/
theorem C71_other_topology (tp tp' : Topo) (h : tp ≠ tp') (L : Lyt) (order : List Nat) (title : List Char) :
    read tp' title (write tp L order) = none := by
  have hn : topologyName tp ≠ topologyName tp' := by
    rcases tp with _ | a <;> rcases tp' with _ | b <;> (try cases a) <;> (try cases b) <;> first | exact absurd rfl h | decide
  unfold read
  exact if_pos hn

end Verif.Fgl
