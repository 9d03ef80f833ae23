import Verif.Properties.CritPathLemmas
import Verif.GateLevel.FlowProps
import Mathlib.Data.Nat.ModEq
import Mathlib.Data.Finset.Card
import Mathlib.Data.List.Range
import Mathlib.Data.List.Sort
import Mathlib.Tactic.Linarith
import Mathlib.Tactic.IntervalCases

/-!
# C46: the critical path length is the longest path from an input to an output
-/
namespace Verif.CritPath

open Verif.Layouts Verif.Clocking Verif.GateLevel

section
variable {v : View} {sort : List Info → List Info} {rank : Coord → Nat}

/-- C46: on a layout without cycles the algorithm terminates, and the critical path length it returns is the number of
tiles on a longest path along the data flow that starts in a tile without incoming data and ends in an output. -/
theorem C46_length (hs : Sorts sort) (hac : Acyclic v rank) (hne : ∀ t, ∀ u ∈ v.inc t, v.isEmpty u = false)
    (hpos : ∀ t ∈ v.pos, v.isEmpty t = false) (fuel : Nat) (hf : ∀ t, rank t < fuel) :
    ∃ r, criticalPath v sort fuel = some r ∧
      (∀ po ∈ v.pos, ∀ a k, v.inc a = [] → FlowPath v a po k → k ≤ r.criticalPathLength) ∧
      (v.pos ≠ [] → ∃ po ∈ v.pos, ∃ a, v.inc a = [] ∧ FlowPath v a po r.criticalPathLength) ∧
      (v.pos = [] → r.criticalPathLength = 0) := by
  obtain ⟨cp, c, h1, -, -, -, -, h2, h3⟩ := overPos_rule (Good := fun t i => Longest v t i.length) (R := fun _ => True)
    (sort := sort) hac hne (by simp) (fun t h => longest_src h) (fun t is ht h => longest_step hs t is ht h) fuel hf v.pos hpos (by simp)
    [] (by intro e he; simp at he) 0
  refine ⟨⟨cp, maxDiff c / v.n + 1⟩, by simp [criticalPath, h1], ?_, ?_, ?_⟩
  · intro po hpo a k ha hp
    obtain ⟨i, hi, hle⟩ := h2 po hpo
    exact Nat.le_trans (hi.2 a k ha hp) hle
  · intro hne'
    rcases h3 with h | ⟨t, ht, i, hi, e⟩
    · obtain ⟨po, hpo⟩ := List.exists_mem_of_ne_nil _ hne'
      obtain ⟨i, ⟨⟨a, _, hp⟩, _⟩, hle⟩ := h2 po hpo
      have := hp.pos
      omega
    · obtain ⟨⟨a, ha, hp⟩, _⟩ := hi
      exact ⟨t, ht, a, ha, e ▸ hp⟩
  · intro he
    rw [he] at h3
    simpa using h3

/-- Connections are correctly clocked and clock numbers are in range. -/
structure Clocked (v : View) : Prop where
  range : ∀ t, v.clk t < v.n
  flow : ∀ t, ∀ u ∈ v.inc t, (v.clk u + 1) % v.n = v.clk t

private theorem path_clk (hc : Clocked v) {a t : Coord} {k : Nat} (h : FlowPath v a t k) :
    v.clk t = (v.clk a + (k - 1)) % v.n := by
  induction h with
  | here => simp [Nat.mod_eq_of_lt (hc.range a)]
  | @step u t k h hu ih =>
    rw [← hc.flow t u hu, ih, Nat.mod_add_mod]
    have := h.pos
    congr 1; omega

private theorem delay_mono (hc : Clocked v) {a1 a2 u1 u2 : Coord} {k1 k2 : Nat} (hu : v.clk u1 = v.clk u2)
    (h1 : FlowPath v a1 u1 k1) (h2 : FlowPath v a2 u2 k2) (hk : k1 ≤ k2) :
    v.clk a1 + (k1 - 1) ≤ v.clk a2 + (k2 - 1) := by
  rw [path_clk hc h1, path_clk hc h2] at hu
  by_contra hlt
  have hd : v.n ∣ (v.clk a1 + (k1 - 1)) - (v.clk a2 + (k2 - 1)) := (Nat.modEq_iff_dvd' (by omega)).1 hu.symm
  have := Nat.le_of_dvd (by omega) hd
  have := hc.range a1
  omega

private theorem siblings (hc : Clocked v) {t u1 u2 : Coord} (h1 : u1 ∈ v.inc t) (h2 : u2 ∈ v.inc t) : v.clk u1 = v.clk u2 := by
  have e1 := hc.flow t u1 h1
  have e2 := hc.flow t u2 h2
  have r1 := hc.range u1
  have r2 := hc.range u2
  have : v.clk u1 ≡ v.clk u2 [MOD v.n] := Nat.ModEq.add_right_cancel' 1 (e1.trans e2.symm)
  unfold Nat.ModEq at this
  rwa [Nat.mod_eq_of_lt r1, Nat.mod_eq_of_lt r2] at this

private def Good (v : View) (t : Coord) (i : Info) : Prop :=
  Longest v t i.length ∧ (∃ a, v.inc a = [] ∧ FlowPath v a t i.length ∧ i.delay = v.clk a + (i.length - 1)) ∧
  (∀ u1 ∈ v.inc t, ∀ u2 ∈ v.inc t, ∀ d1 d2, Latest v u1 d1 → Latest v u2 d2 → d1 - d2 ≤ i.diff) ∧
  (i.diff = 0 ∨ ∃ w, Anc v w t ∧ ∃ u1 ∈ v.inc w, ∃ u2 ∈ v.inc w, ∃ d1 d2, Latest v u1 d1 ∧ Latest v u2 d2 ∧ i.diff = d1 - d2)

private theorem Latest.unique {t : Coord} {d d' : Nat} (h : Latest v t d) (h' : Latest v t d') : d = d' := by
  obtain ⟨⟨a, k, ha, hp, e⟩, hm⟩ := h
  obtain ⟨⟨a', k', ha', hp', e'⟩, hm'⟩ := h'
  have := hm a' k' ha' hp'
  have := hm' a k ha hp
  omega

private theorem Good.latest (hc : Clocked v) {t : Coord} {i : Info} (h : Good v t i) : Latest v t i.delay := by
  obtain ⟨⟨_, hm⟩, ⟨a, ha, hp, e⟩, _⟩ := h
  refine ⟨⟨a, _, ha, hp, e⟩, fun a' k' ha' hp' => ?_⟩
  rw [e]
  exact delay_mono hc rfl hp' hp (hm a' k' ha' hp')

private theorem good_step (hs : Sorts sort) (hc : Clocked v) (hpi : ∀ t, v.isPi t = true → v.inc t = []) (t : Coord) (infos : List Info)
    (ht : v.inc t ≠ []) (h : List.Forall₂ (Good v) (v.inc t) infos) : Good v t (dominant sort (extend v t infos)) := by
  have hl := longest_step hs t infos ht (h.imp (fun _ _ hg => hg.1))
  have he : extend v t infos = infos := by
    unfold extend; rw [if_neg]; intro hp; exact ht (hpi t hp)
  rw [he] at hl ⊢
  obtain ⟨m1, m2⟩ := forall2_mem h
  have hne : infos ≠ [] := by
    rintro rfl
    obtain ⟨u0, hu0⟩ := List.exists_mem_of_ne_nil _ ht
    obtain ⟨_, h0, _⟩ := m1 u0 hu0
    simp at h0
  obtain ⟨b, hb, hmax, e1, e2, hd⟩ := dominant_spec hs infos hne
  obtain ⟨ub, hub, hgb⟩ := m2 b hb
  refine ⟨hl, ?_, ?_⟩
  · obtain ⟨_, ⟨a, ha, hp, e⟩, _⟩ := hgb
    refine ⟨a, ha, e1 ▸ hp.step hub, ?_⟩
    have := hp.pos
    rw [e1, e2, e]; omega
  · have hle : ∀ i ∈ infos, ∀ j ∈ infos, i.length ≤ j.length → i.delay ≤ j.delay := by
      intro i hi j hj hij
      obtain ⟨ui, hui, _, ⟨a, _, hp, e⟩, _⟩ := m2 i hi
      obtain ⟨uj, huj, _, ⟨a', _, hp', e'⟩, _⟩ := m2 j hj
      rw [e, e']
      exact delay_mono hc (siblings hc hui huj) hp hp' hij
    rcases hd with ⟨rfl, hd⟩ | ⟨f, hf, hmin, hd⟩
    · rw [hd]
      refine ⟨?_, ?_⟩
      · intro u1 h1 u2 h2 d1 d2 l1 l2
        obtain ⟨i, hi, g⟩ := m1 u1 h1
        obtain ⟨j, hj, g'⟩ := m1 u2 h2
        simp only [List.mem_singleton] at hi hj
        subst hi hj
        have := l1.unique (g.latest hc)
        have := l2.unique (g'.latest hc)
        omega
      · rcases hgb.2.2.2 with h0 | ⟨w, hw, rest⟩
        · exact .inl h0
        · exact .inr ⟨w, hw.tail hub, rest⟩
    · rw [hd]
      have hfb : f.delay ≤ b.delay := hle f hf b hb (hmax f hf)
      have habs : absDiff b.delay f.delay = b.delay - f.delay := by unfold absDiff; rw [if_pos hfb]
      rw [habs]
      refine ⟨?_, ?_⟩
      · intro u1 h1 u2 h2 d1 d2 l1 l2
        obtain ⟨i, hi, g⟩ := m1 u1 h1
        obtain ⟨j, hj, g'⟩ := m1 u2 h2
        have e3 := l1.unique (g.latest hc)
        have e4 := l2.unique (g'.latest hc)
        have := hle i hi b hb (hmax i hi)
        have := hle f hf j hj (hmin j hj)
        omega
      · obtain ⟨uf, huf, hgf⟩ := m2 f hf
        exact .inr ⟨t, .refl, ub, hub, uf, huf, _, _, hgb.latest hc, hgf.latest hc, rfl⟩

/-- C46 (throughput): on a correctly clocked layout without cycles, whose inputs have no incoming data and whose wire
segments have at most one fanin, let `M` be the largest difference of the latest arrival times, in clock phases, of two
fanins of the same tile, over all tiles from which data flows to an output. Then `M` is a whole number of clock cycles,
and the throughput returned is this number plus one. -/
theorem C46_throughput (hs : Sorts sort) (hac : Acyclic v rank) (hne : ∀ t, ∀ u ∈ v.inc t, v.isEmpty u = false)
    (hpos : ∀ t ∈ v.pos, v.isEmpty t = false) (hc : Clocked v) (hpi : ∀ t, v.isPi t = true → v.inc t = [])
    (hw : ∀ t, v.isWire t = true → ∀ u1 ∈ v.inc t, ∀ u2 ∈ v.inc t, u1 = u2) (fuel : Nat) (hf : ∀ t, rank t < fuel) :
    ∃ r M q, criticalPath v sort fuel = some r ∧ M = v.n * q ∧ r.throughput = q + 1 ∧
      (∀ po ∈ v.pos, ∀ t, Anc v t po → ∀ u1 ∈ v.inc t, ∀ u2 ∈ v.inc t, ∀ d1 d2, Latest v u1 d1 → Latest v u2 d2 → d1 ≤ d2 + M) ∧
      (M = 0 ∨ ∃ po ∈ v.pos, ∃ t, Anc v t po ∧ ∃ u1 ∈ v.inc t, ∃ u2 ∈ v.inc t, ∃ d2, Latest v u1 (d2 + M) ∧ Latest v u2 d2) := by
  obtain ⟨cp, c, h1, -, hok, hcov, -, h2, h3⟩ := overPos_rule (Good := Good v) (R := fun t => ∃ po ∈ v.pos, Anc v t po)
    (sort := sort) hac hne (by
      rintro t ⟨po, hpo, ha⟩ u hu
      exact ⟨po, hpo, Relation.ReflTransGen.head hu ha⟩)
    (fun t h => ⟨longest_src h, ⟨t, h, .here, by simp⟩, by simp [h], .inl rfl⟩)
    (fun t is ht h => good_step hs hc hpi t is ht h) fuel hf v.pos hpos (fun t ht => ⟨t, ht, .refl⟩)
    [] (by intro e he; simp at he) 0
  have hatt : maxDiff c = 0 ∨ ∃ po ∈ v.pos, ∃ t, Anc v t po ∧ ∃ u1 ∈ v.inc t, ∃ u2 ∈ v.inc t, ∃ d1 d2, Latest v u1 d1 ∧ Latest v u2 d2 ∧
      maxDiff c = d1 - d2 := by
    rcases (maxDiff_spec c).2 with h | ⟨e, he, hd⟩
    · exact .inl h
    · obtain ⟨⟨_, _, _, hg⟩, ⟨po, hpo, ha⟩, _⟩ := hok e he
      rw [← hd]
      rcases hg with h0 | ⟨w, hw, u1, hu1, u2, hu2, d1, d2, l1, l2, e'⟩
      · exact .inl h0
      · exact .inr ⟨po, hpo, w, Relation.ReflTransGen.trans hw ha, u1, hu1, u2, hu2, d1, d2, l1, l2, e'⟩
  have hdvd : v.n ∣ maxDiff c := by
    rcases hatt with h | ⟨po, hpo, t, ha, u1, hu1, u2, hu2, d1, d2, l1, l2, e⟩
    · rw [h]; exact Nat.dvd_zero _
    · rcases Nat.le_total d1 d2 with hle | hle
      · rw [e, Nat.sub_eq_zero_of_le hle]; exact Nat.dvd_zero _
      · rw [e]
        obtain ⟨⟨a1, k1, _, p1, rfl⟩, _⟩ := l1
        obtain ⟨⟨a2, k2, _, p2, rfl⟩, _⟩ := l2
        refine (Nat.modEq_iff_dvd' hle).1 ?_
        have := siblings hc hu1 hu2
        rw [path_clk hc p1, path_clk hc p2] at this
        exact this.symm
  obtain ⟨q, hq⟩ := hdvd
  refine ⟨⟨cp, maxDiff c / v.n + 1⟩, maxDiff c, q, by simp [criticalPath, h1], hq, ?_, ?_, ?_⟩
  · show maxDiff c / v.n + 1 = q + 1
    rw [hq]
    have hn : 0 < v.n := Nat.lt_of_le_of_lt (Nat.zero_le _) (hc.range ⟨0, 0, 0, false⟩)
    rw [Nat.mul_div_cancel_left _ hn]
  · intro po hpo t ha u1 hu1 u2 hu2 d1 d2 l1 l2
    cases hwt : v.isWire t with
    | true =>
      have := hw t hwt u1 hu1 u2 hu2
      subst this
      have := l1.unique l2
      omega
    | false =>
      obtain ⟨i, hi⟩ := hcov po hpo t ha hwt (by intro h; rw [h] at hu1; simp at hu1)
      have := (hok _ hi).1.2.2.1 u1 hu1 u2 hu2 d1 d2 l1 l2
      have := (maxDiff_spec c).1 _ hi
      simp only at *
      omega
  · rcases hatt with h | ⟨po, hpo, t, ha, u1, hu1, u2, hu2, d1, d2, l1, l2, e⟩
    · exact .inl h
    · rcases Nat.le_total d1 d2 with hle | hle
      · exact .inl (by omega)
      · refine .inr ⟨po, hpo, t, ha, u1, hu1, u2, hu2, d2, ?_, l2⟩
        rwa [e, Nat.add_sub_cancel' hle]

end

/-! ## Gate-level layouts -/

/-- All tiles of the layout. -/
def tiles (m : Dim) : List Coord :=
  (List.range (m.X + 1)).flatMap fun x => (List.range (m.Y + 1)).flatMap fun y =>
    (List.range (m.Z + 1)).map fun z => ⟨x, y, z, false⟩

theorem mem_tiles {m : Dim} {t : Coord} : t ∈ tiles m ↔ InBounds m t := by
  obtain ⟨x, y, z, d⟩ := t
  simp only [tiles, List.mem_flatMap, List.mem_range, List.mem_map, InBounds]
  constructor
  · rintro ⟨x', hx, y', hy, z', hz, h⟩
    simp only [Coord.mk.injEq] at h
    obtain ⟨rfl, rfl, rfl, rfl⟩ := h
    exact ⟨rfl, by omega, by omega, by omega⟩
  · rintro ⟨hd, h1, h2, h3⟩
    exact ⟨x, by omega, y, by omega, z, by omega, by rw [hd]⟩

theorem tiles_length (m : Dim) : (tiles m).length = (m.X + 1) * ((m.Y + 1) * (m.Z + 1)) := by
  simp [tiles, List.length_flatMap]

/-- A flow graph on the tiles of a layout without cycles has a ranking. -/
theorem exists_rank {v : View} {m : Dim} (hb : ∀ t, ∀ u ∈ v.inc t, InBounds m u)
    (hc : ∀ t, ¬ Relation.TransGen (fun a b => a ∈ v.inc b) t t) :
    ∃ rank, Acyclic v rank ∧ ∀ t, rank t < (m.X + 1) * ((m.Y + 1) * (m.Z + 1)) + 1 := by
  classical
  refine ⟨fun t => ((tiles m).toFinset.filter (fun w => Relation.TransGen (fun a b => a ∈ v.inc b) w t)).card, ?_, ?_⟩
  · intro t u hu
    refine Finset.card_lt_card (Finset.ssubset_iff_of_subset ?_ |>.2 ⟨u, ?_, ?_⟩)
    · intro w hw
      rw [Finset.mem_filter] at hw ⊢
      exact ⟨hw.1, hw.2.tail hu⟩
    · rw [Finset.mem_filter, List.mem_toFinset, mem_tiles]
      exact ⟨hb t u hu, .single hu⟩
    · rw [Finset.mem_filter]
      exact fun h => hc u h.2
  · intro t
    rw [← tiles_length]
    exact Nat.lt_succ_of_le (Nat.le_trans (Finset.card_filter_le _ _) (List.toFinset_card_le _))

section
variable (m : Dim) (ops : List GateLevel.Op) (tp : Topo) (cs : Scheme)

/-- What the flow graph of a layout in use satisfies. -/
theorem view_facts (hv : Valid m init ops) (hX : m.X < 2^31 - 1) (hY : m.Y < 2^31 - 1)
    (hin : ∀ t n, (run m init ops).tileNode t = some n → 2 ≤ n → InBounds m t) (t u : Coord)
    (hu : u ∈ (ofState m tp cs (run m init ops)).inc t) :
    InBounds m t ∧ InBounds m u ∧ (ofState m tp cs (run m init ops)).isEmpty u = false ∧ isIncomingClocked cs t u = true ∧
      u ∈ (run m init ops).fanins m tp cs false ((run m init ops).getNode t) ∧
      (run m init ops).getTile ((run m init ops).getNode t) = t ∧ (run m init ops).getTile ((run m init ops).getNode u) = u ∧
      (run m init ops).getNode t ∈ (run m init ops).fanouts m tp cs false ((run m init ops).getNode u) := by
  generalize hs : run m init ops = s at *
  have w : WF s := hs ▸ WF.init.run m ops hv
  have hcc := no_const_children m ops hv
  rw [hs] at hcc
  simp only [ofState] at hu ⊢
  have hn : ¬ s.getNode t ≤ 1 := by
    intro h; unfold State.fanins at hu; rw [if_pos h] at hu; simp at hu
  obtain ⟨n, hn'⟩ : ∃ n, s.tileNode t = some n := by
    cases e : s.tileNode t with
    | none => simp [State.getNode, e] at hn
    | some n => exact ⟨n, rfl⟩
  have en : s.getNode t = n := by simp [State.getNode, hn']
  rw [en] at hn hu ⊢
  have et : s.getTile n = t := by simp [State.getTile, (w.inv t n).1 hn']
  have hbt := hin t n hn' (by omega)
  have hu' : u ∈ s.fanins m tp cs false n ∧ isIncomingClocked cs t u = true := by
    unfold State.fanins at hu ⊢
    rw [if_neg hn] at hu ⊢
    simp only [List.mem_map, List.mem_filter, et, Bool.and_eq_true] at hu ⊢
    obtain ⟨c, ⟨h1, h2, h3⟩, rfl⟩ := hu
    exact ⟨⟨c, ⟨h1, h2, by simp⟩, rfl⟩, by simpa using h3⟩
  obtain ⟨h1, h2, h3⟩ := (dual m w hcc tp hX hY cs false (by simp) 2 n).2 (by rw [(w.inv t n).1 hn']; simp) (by rw [et]; exact hbt) u hu'.1
  refine ⟨hbt, h1, ?_, hu'.2, hu'.1, et, h2, h3⟩
  simp only [State.isEmptyTile, beq_eq_false_iff_ne]
  intro h0
  rw [h0] at h2
  have hd : u.d = false := h1.1
  cases e0 : s.nodeTile 0 with
  | none => rw [← h2] at hd; simp [State.getTile, e0, const0] at hd
  | some t0 =>
    have := (w.live t0 0 ((w.inv t0 0).2 e0)).1 (by omega)
    rw [← h2] at hd; simp [State.getTile, e0, this] at hd

variable {sort : List Info → List Info}

/-- C46 for gate-level layouts built by any history of operations: if all nodes are within the layout, data does not flow
in cycles, the outputs are placed, and only primary inputs have no fanins, then the critical path length is the number
of tiles on a longest path from a primary input to a primary output. -/
theorem C46_layout_length (hs : Sorts sort) (hv : Valid m init ops) (hX : m.X < 2^31 - 1) (hY : m.Y < 2^31 - 1)
    (hin : ∀ t n, (run m init ops).tileNode t = some n → 2 ≤ n → InBounds m t)
    (hac : ∀ t, ¬ Relation.TransGen (fun a b => a ∈ (ofState m tp cs (run m init ops)).inc b) t t)
    (hpos : ∀ t ∈ (run m init ops).outputs, InBounds m t ∧ (run m init ops).isEmptyTile t = false)
    (hpi : ∀ t, InBounds m t → (run m init ops).isEmptyTile t = false → (ofState m tp cs (run m init ops)).inc t = [] →
      (run m init ops).isPi ((run m init ops).getNode t) = true)
    (hpi' : ∀ n ∈ (run m init ops).inputs, ((run m init ops).nodes n).children = []) :
    let v := ofState m tp cs (run m init ops)
    ∃ r, criticalPath v sort ((m.X + 1) * ((m.Y + 1) * (m.Z + 1)) + 1) = some r ∧
      (∀ po ∈ v.pos, ∀ a k, v.isPi a = true → FlowPath v a po k → k ≤ r.criticalPathLength) ∧
      (v.pos ≠ [] → ∃ po ∈ v.pos, ∃ a, v.isPi a = true ∧ FlowPath v a po r.criticalPathLength) := by
  intro v
  have hf := view_facts m ops tp cs hv hX hY hin
  obtain ⟨rank, h1, h2⟩ := exists_rank (fun t u hu => (hf t u hu).2.1) hac
  obtain ⟨r, e, r1, r2, -⟩ := C46_length (v := v) hs h1 (fun t u hu => (hf t u hu).2.2.1) (fun t ht => (hpos t ht).2) _ h2
  have hsrc : ∀ a, v.isPi a = true → v.inc a = [] := by
    intro a ha
    have : (run m init ops).getNode a ∈ (run m init ops).inputs := by simpa [v, ofState, State.isPi] using ha
    simp [v, ofState, State.fanins, hpi' _ this]
  refine ⟨r, e, fun po hpo a k ha hp => r1 po hpo a k (hsrc a ha) hp, fun hne => ?_⟩
  obtain ⟨po, hpo, a, ha, hp⟩ := r2 hne
  have : ∀ {t k}, FlowPath v a t k → InBounds m t ∧ v.isEmpty t = false → InBounds m a ∧ v.isEmpty a = false := by
    intro t k h
    induction h with
    | here => exact id
    | step _ hu ih => exact fun _ => ih ⟨(hf _ _ hu).2.1, (hf _ _ hu).2.2.1⟩
  obtain ⟨hb, he⟩ := this hp (hpos po hpo)
  exact ⟨po, hpo, a, hpi a hb he ha, hp⟩

/-- C46 (throughput) for gate-level layouts built by any history of operations. -/
theorem C46_layout_throughput (hs : Sorts sort) (hv : Valid m init ops) (hX : m.X < 2^31 - 1) (hY : m.Y < 2^31 - 1)
    (hcl : ∀ t, cs.clock t < cs.numClocks)
    (hin : ∀ t n, (run m init ops).tileNode t = some n → 2 ≤ n → InBounds m t)
    (hac : ∀ t, ¬ Relation.TransGen (fun a b => a ∈ (ofState m tp cs (run m init ops)).inc b) t t)
    (hpos : ∀ t ∈ (run m init ops).outputs, (run m init ops).isEmptyTile t = false)
    (hpi : ∀ n ∈ (run m init ops).inputs, ((run m init ops).nodes n).children = [])
    (hw : ∀ n < (run m init ops).size, (run m init ops).isWire n = true → ((run m init ops).nodes n).children.length ≤ 1) :
    let v := ofState m tp cs (run m init ops)
    ∃ r M q, criticalPath v sort ((m.X + 1) * ((m.Y + 1) * (m.Z + 1)) + 1) = some r ∧ M = v.n * q ∧ r.throughput = q + 1 ∧
      (∀ po ∈ v.pos, ∀ t, Anc v t po → ∀ u1 ∈ v.inc t, ∀ u2 ∈ v.inc t, ∀ d1 d2, Latest v u1 d1 → Latest v u2 d2 → d1 ≤ d2 + M) ∧
      (M = 0 ∨ ∃ po ∈ v.pos, ∃ t, Anc v t po ∧ ∃ u1 ∈ v.inc t, ∃ u2 ∈ v.inc t, ∃ d2, Latest v u1 (d2 + M) ∧ Latest v u2 d2) := by
  intro v
  have hf := view_facts m ops tp cs hv hX hY hin
  obtain ⟨rank, h1, h2⟩ := exists_rank (fun t u hu => (hf t u hu).2.1) hac
  refine C46_throughput (v := v) hs h1 (fun t u hu => (hf t u hu).2.2.1) hpos ⟨hcl, ?_⟩ ?_ ?_ _ h2
  · intro t u hu
    have := (hf t u hu).2.2.2.1
    unfold isIncomingClocked at this
    split_ifs at this
    show (cs.clock u + 1) % cs.numClocks = cs.clock t
    simpa using this
  · intro a ha
    have : (run m init ops).getNode a ∈ (run m init ops).inputs := by simpa [v, ofState, State.isPi] using ha
    simp [v, ofState, State.fanins, hpi _ this]
  · intro t ht u1 hu1 u2 hu2
    have hlt : (run m init ops).getNode t < (run m init ops).size := by
      have w : WF (run m init ops) := WF.init.run m ops hv
      cases e : (run m init ops).tileNode t with
      | none => have := w.two; simp only [State.getNode, e]; simp; omega
      | some n => simpa [State.getNode, e] using w.lt t n e
    have hl := hw _ hlt ht
    simp only [v, ofState, State.fanins] at hu1 hu2
    split_ifs at hu1 hu2 with hn
    · simp at hu1
    simp only [List.mem_map, List.mem_filter] at hu1 hu2
    obtain ⟨c1, ⟨m1, -⟩, rfl⟩ := hu1
    obtain ⟨c2, ⟨m2, -⟩, rfl⟩ := hu2
    match hch : ((run m init ops).nodes ((run m init ops).getNode t)).children, hl with
    | [], _ => rw [hch] at m1; simp at m1
    | [x], _ => rw [hch] at m1 m2; simp at m1 m2; rw [m1, m2]
    | _ :: _ :: _, h => simp at h

/-- The data flow of a layout follows the flow of the clocking scheme, projected to the ground layer. -/
theorem flow_ground (hv : Valid m init ops) (hX : m.X < 2^31 - 1) (hY : m.Y < 2^31 - 1) (hcs : LayerFree cs)
    (hin : ∀ t n, (run m init ops).tileNode t = some n → 2 ≤ n → InBounds m t) (t u : Coord)
    (hu : u ∈ (ofState m tp cs (run m init ops)).inc t) :
    Flow tp m cs { u with z := 0 } { t with z := 0 } := by
  obtain ⟨hbt, hbu, hem, hcl, -, et, eu, hfo⟩ := view_facts m ops tp cs hv hX hY hin t u hu
  have hg : InBounds m { u with z := 0 } := ⟨hbu.1, hbu.2.1, hbu.2.2.1, Nat.zero_le _⟩
  have hgt : InBounds m { t with z := 0 } := ⟨hbt.1, hbt.2.1, hbt.2.2.1, Nat.zero_le _⟩
  have hadj : { t with z := 0 } ∈ tp.adjacent m { u with z := 0 } := by
    unfold State.fanouts at hfo
    by_cases h1 : (run m init ops).getNode u ≤ 1
    · rw [if_pos h1] at hfo; simp at hfo
    rw [if_neg h1] at hfo
    simp only [eu, List.mem_flatMap, List.mem_filter, List.mem_map, Bool.false_eq_true, if_false] at hfo
    obtain ⟨out, hout, ⟨x, hx, hxt⟩, -⟩ := hfo
    have w : WF (run m init ops) := WF.init.run m ops hv
    obtain ⟨hob, hne, hz⟩ := adj_facts m tp hX hY u out hbu hout
    have hx' : x = out ∨ x = Cart.above m out ∨ x = Cart.below out := by
      simp only [List.mem_append, List.mem_singleton] at hx
      rcases hx with (h | h) | h
      · exact .inl h
      · split_ifs at h
        · simp at h; exact .inr (.inl h)
        · simp at h
      · split_ifs at h
        · simp at h; exact .inr (.inr h)
        · simp at h
    obtain ⟨hxb, hxx, hxy, -⟩ := above_below hob hx'
    have ext : x = t := by
      have hd : t.d = false := hbt.1
      cases e : (run m init ops).tileNode x with
      | none =>
        exfalso
        have h0 : (run m init ops).getNode x = 0 := by simp [State.getNode, e]
        rw [h0] at hxt
        rw [← hxt] at et
        cases e0 : (run m init ops).nodeTile 0 with
        | none => rw [← et] at hd; simp [State.getTile, e0, const0] at hd
        | some t0 =>
          have := (w.live t0 0 ((w.inv t0 0).2 e0)).1 (by omega)
          rw [← et] at hd; simp [State.getTile, e0, this] at hd
      | some k =>
        have hk : (run m init ops).getNode x = k := by simp [State.getNode, e]
        rw [← hxt, hk] at et
        rw [← et]; simp [State.getTile, (w.inv x k).1 e]
    subst ext
    cases tp with
    | cart =>
      simp only [Topo.adjacent] at hout ⊢
      rw [(C07_adjacent_exact m u hbu).1] at hout
      rw [(C07_adjacent_exact m _ hg).1]
      refine ⟨hgt, rfl, ?_⟩
      have := hout.2.2
      simp only [hxx, hxy]; exact this
    | hex r =>
      simp only [Topo.adjacent] at hout ⊢
      rw [C09_adjacent_exact r m hX hY u out hbu] at hout
      rw [C09_adjacent_exact r m hX hY _ _ hg]
      refine ⟨hgt, rfl, ?_⟩
      have := hout.2.2
      have e1 : hexCentre r { x with z := 0 } = hexCentre r out := by
        cases r <;> simp only [hexCentre, hxx, hxy]
      have e2 : hexCentre r { u with z := 0 } = hexCentre r u := by cases r <;> rfl
      rw [e1, e2]; exact this
  refine ⟨hg, ?_⟩
  unfold outgoingClockedZones
  rw [List.mem_filter]
  refine ⟨hadj, ?_⟩
  unfold isIncomingClocked at hcl
  split_ifs at hcl
  unfold isOutgoingClocked
  rw [if_neg]
  · rw [hcs { t with z := 0 } t rfl rfl, hcs { u with z := 0 } u rfl rfl]
    exact hcl
  · have := (adj_facts m tp hX hY _ _ hg hadj).2.1
    exact this.symm

/-- With a linear clocking scheme the data flow has no cycles, so the hypothesis of the theorems above is met. -/
theorem C46_linear_acyclic (hv : Valid m init ops) (hX : m.X < 2^31 - 1) (hY : m.Y < 2^31 - 1)
    (hin : ∀ t n, (run m init ops).tileNode t = some n → 2 ≤ n → InBounds m t) (nc : NumClks)
    (hs : (tp = .cart ∧ (cs = columnarClocking .cart nc ∨ cs = rowClocking .cart nc ∨ cs = twoddwaveClocking .cart nc)) ∨
      ∃ r, tp = .hex r ∧ (cs = columnarClocking (.hex r) nc ∨ cs = rowClocking (.hex r) nc ∨
        cs = twoddwaveHexClocking (.hex r) nc)) (hlf : LayerFree cs) (t : Coord) :
    ¬ Relation.TransGen (fun a b => a ∈ (ofState m tp cs (run m init ops)).inc b) t t := by
  intro h
  have h' : Relation.TransGen (Flow tp m cs) { t with z := 0 } { t with z := 0 } :=
    Relation.TransGen.lift (fun c : Coord => ({ c with z := 0 } : Coord))
      (fun a b hab => flow_ground m ops tp cs hv hX hY hlf hin b a hab) _ _ h
  rcases hs with ⟨rfl, hs⟩ | ⟨r, rfl, hs⟩
  · exact C12_cartesian_acyclic m nc cs (by tauto) _ h'
  · exact C12_hexagonal_acyclic r m hX hY nc cs (by tauto) _ h'

end

/-! ### A concrete case -/

/-- Insertion sort by length. -/
def bySize (l : List Info) : List Info := l.insertionSort (fun a b => a.length ≤ b.length)

theorem bySize_sorts : Sorts bySize := by
  intro l
  refine ⟨List.perm_insertionSort _ l, ?_⟩
  have ht : IsTrans Info (fun a b => a.length ≤ b.length) := ⟨fun _ _ _ => Nat.le_trans⟩
  have ho : Std.Total (fun a b : Info => a.length ≤ b.length) := ⟨fun a b => Nat.le_total _ _⟩
  exact List.pairwise_insertionSort _ l

/-- Two inputs at different distances from a gate: the signals arrive one clock cycle apart. -/
def unbalanced : List GateLevel.Op :=
  [.createPi ⟨0, 1, 0, false⟩, .createPi ⟨4, 0, 0, false⟩, .createGate 2 [⟨0, 1, 0, false⟩] ⟨1, 1, 0, false⟩,
   .createGate 2 [⟨1, 1, 0, false⟩] ⟨2, 1, 0, false⟩, .createGate 2 [⟨2, 1, 0, false⟩] ⟨3, 1, 0, false⟩,
   .createGate 4 [⟨3, 1, 0, false⟩, ⟨4, 0, 0, false⟩] ⟨4, 1, 0, false⟩, .createPo ⟨4, 1, 0, false⟩ ⟨5, 1, 0, false⟩]

example : criticalPath (ofState ⟨5, 1, 0⟩ .cart (twoddwaveClocking .cart .four) (run ⟨5, 1, 0⟩ init unbalanced)) bySize 13 =
    some ⟨6, 2⟩ := by decide +kernel

theorem unbalanced_valid : Valid ⟨5, 1, 0⟩ init unbalanced :=
  ⟨trivial, trivial, trivial, trivial, trivial, trivial, trivial, trivial⟩

/-- The nodes of the layout, their tiles, and their children. -/
theorem unbalanced_nodes (t : Coord) (n : Nat) (h : (run ⟨5, 1, 0⟩ init unbalanced).tileNode t = some n) :
    n < 9 ∧ (run ⟨5, 1, 0⟩ init unbalanced).nodeTile n = some t := by
  have w : WF (run ⟨5, 1, 0⟩ init unbalanced) := WF.init.run _ _ unbalanced_valid
  have e : (run ⟨5, 1, 0⟩ init unbalanced).size = 9 := by decide +kernel
  have h9 := w.lt t n h
  rw [e] at h9
  exact ⟨h9, (w.inv t n).1 h⟩

/-- The layout meets the hypotheses of `C46_layout_length` and `C46_layout_throughput`. -/
example :
    (∀ t n, (run ⟨5, 1, 0⟩ init unbalanced).tileNode t = some n → 2 ≤ n → InBounds ⟨5, 1, 0⟩ t) ∧
    (∀ t, ¬ Relation.TransGen (fun a b => a ∈ (ofState ⟨5, 1, 0⟩ .cart (twoddwaveClocking .cart .four) (run ⟨5, 1, 0⟩ init unbalanced)).inc b) t t) ∧
    (∀ t ∈ (run ⟨5, 1, 0⟩ init unbalanced).outputs, InBounds ⟨5, 1, 0⟩ t ∧ (run ⟨5, 1, 0⟩ init unbalanced).isEmptyTile t = false) ∧
    (∀ t, InBounds ⟨5, 1, 0⟩ t → (run ⟨5, 1, 0⟩ init unbalanced).isEmptyTile t = false → (ofState ⟨5, 1, 0⟩ .cart (twoddwaveClocking .cart .four) (run ⟨5, 1, 0⟩ init unbalanced)).inc t = [] → (run ⟨5, 1, 0⟩ init unbalanced).isPi ((run ⟨5, 1, 0⟩ init unbalanced).getNode t) = true) ∧
    (∀ n ∈ (run ⟨5, 1, 0⟩ init unbalanced).inputs, ((run ⟨5, 1, 0⟩ init unbalanced).nodes n).children = []) ∧
    (∀ n < (run ⟨5, 1, 0⟩ init unbalanced).size, (run ⟨5, 1, 0⟩ init unbalanced).isWire n = true → ((run ⟨5, 1, 0⟩ init unbalanced).nodes n).children.length ≤ 1) ∧ ∀ t, (twoddwaveClocking .cart .four).clock t < (twoddwaveClocking .cart .four).numClocks := by
  have hin : ∀ t n, (run ⟨5, 1, 0⟩ init unbalanced).tileNode t = some n → 2 ≤ n → InBounds ⟨5, 1, 0⟩ t := by
    intro t n h hn
    have h1 : n < 9 := And.left (unbalanced_nodes t n h)
    have h2 : (run ⟨5, 1, 0⟩ init unbalanced).nodeTile n = some t := And.right (unbalanced_nodes t n h)
    have hall : ∀ n < 9, 2 ≤ n → ((run ⟨5, 1, 0⟩ init unbalanced).nodeTile n).any (fun t => decide (InBounds ⟨5, 1, 0⟩ t)) = true := by decide +kernel
    have := hall n h1 hn
    rw [h2] at this
    simpa using this
  have hlf : LayerFree (twoddwaveClocking .cart .four) := by
    intro a b hx hy
    rw [(C10_linear_closed_form .cart .four a).2.2.1, (C10_linear_closed_form .cart .four b).2.2.1, hx, hy]
  refine ⟨hin, C46_linear_acyclic ⟨5, 1, 0⟩ unbalanced .cart (twoddwaveClocking .cart .four) unbalanced_valid (by decide) (by decide) hin .four
    (.inl ⟨rfl, .inr (.inr rfl)⟩) hlf, by decide +kernel, ?_, by decide +kernel, by decide +kernel, ?_⟩
  · intro t hbt ht hi
    have : ∃ n, (run ⟨5, 1, 0⟩ init unbalanced).tileNode t = some n := by
      cases e : (run ⟨5, 1, 0⟩ init unbalanced).tileNode t with
      | none => simp [State.isEmptyTile, State.getNode, e] at ht
      | some n => exact ⟨n, rfl⟩
    obtain ⟨n, hn⟩ := this
    have h1 : n < 9 := And.left (unbalanced_nodes t n hn)
    have h2 : (run ⟨5, 1, 0⟩ init unbalanced).nodeTile n = some t := And.right (unbalanced_nodes t n hn)
    have e : (run ⟨5, 1, 0⟩ init unbalanced).getNode t = n := by simp [State.getNode, hn]
    have hi' : (run ⟨5, 1, 0⟩ init unbalanced).fanins ⟨5, 1, 0⟩ .cart (twoddwaveClocking .cart .four) true n = [] := e ▸ hi
    rw [e]
    have hall : ∀ n < 9, n ≠ 0 → (run ⟨5, 1, 0⟩ init unbalanced).fanins ⟨5, 1, 0⟩ .cart (twoddwaveClocking .cart .four) true n = [] → (run ⟨5, 1, 0⟩ init unbalanced).isPi n = true ∨ (run ⟨5, 1, 0⟩ init unbalanced).nodeTile n = some const1 := by
      decide +kernel
    rcases hall n h1 (by rintro rfl; simp [State.isEmptyTile, e] at ht) hi' with h | h
    · exact h
    · rw [h2] at h
      cases h; exact absurd hbt.1 (by decide)
  · intro t
    show (twoddwaveClocking .cart .four).clock t < 4
    rw [(C10_linear_closed_form .cart .four t).2.2.1]
    exact Nat.mod_lt _ (by decide)

end Verif.CritPath
