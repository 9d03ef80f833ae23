import Verif.PhysicalDesign.ExactFacts
import Verif.PhysicalDesign.OrthoMain
import Verif.PhysicalDesign.LayoutFn

/-!
# Values on the tiles of a layout under construction
-/
namespace Verif.PhysicalDesign.Exact

open Verif.Layouts Verif.Clocking Verif.GateLevel Verif.Networks

/-! ## Flow -/

/-- `c` is the ground tile `g` or, with crossings, the tile above it. -/
def Over (crossings : Bool) (c g : Coord) : Prop := c.d = false ∧ c.x = g.x ∧ c.y = g.y ∧ (c.z = 0 ∨ c.z = 1 ∧ crossings = true)

/-- `foreach_fanin` of a node on `t` visits its child on `c`. -/
def Flows (tp : Topo) (m : Dim) (cs : Scheme) (c t : Coord) : Prop :=
  (Topo.isAdjacentElevationOf tp m t c && (!true || isIncomingClocked cs t c)) = true

section
variable {tp : Topo} {m : Dim} {cs : Scheme} {crossings : Bool} {A : Asg}

theorem over_self {t : Coord} (ht : t ∈ tiles m) : Over crossings t t := by
  obtain ⟨h1, h2, -⟩ := mem_tiles.1 ht
  exact ⟨h1, rfl, rfl, .inl h2⟩

theorem Over.inBounds (hZ : m.Z = if crossings then 1 else 0) {c g : Coord} (h : Over crossings c g) (hg : g ∈ tiles m) : InBounds m c := by
  obtain ⟨h1, h2, h3, h4⟩ := h
  obtain ⟨-, -, g3, g4⟩ := mem_tiles.1 hg
  refine ⟨h1, by omega, by omega, ?_⟩
  rcases h4 with h4 | ⟨h4, rfl⟩
  · omega
  · rw [hZ]; simp [h4]

theorem adjacent_same {m : Dim} (hs : Small m) {g u c v : Coord} (hg : InBounds m g) (h : u ∈ tp.adjacent m g) (hc : InBounds m c)
    (hv : InBounds m v) (hx : c.x = g.x ∧ c.y = g.y) (hu : v.x = u.x ∧ v.y = u.y) (hz : c.z = v.z) : Topo.isAdjacentOf tp m v c = true := by
  cases tp with
  | cart =>
    have := (((C07_adjacent_exact m g hg).1 u).1 h).2
    refine (C07_is_adjacent m v c hv hc).1.2 ⟨hz.symm, ?_⟩
    have := this.2
    rw [hx.1, hx.2, hu.1, hu.2]
    omega
  | hex a =>
    have := ((C09_adjacent_exact a m hs.1 hs.2 g u hg).1 h).2
    have e := (C09_is_adjacent a m hs.1 hs.2 v c hv hc).2.1
    simp only [Topo.isAdjacentOf]
    rw [e]
    refine (C09_is_adjacent a m hs.1 hs.2 c v hc hv).1.2 ⟨hz, ?_⟩
    have := this.2
    have e1 : hexCentre a c = hexCentre a g := by cases a <;> simp only [hexCentre, hx.1, hx.2]
    have e2 : hexCentre a v = hexCentre a u := by cases a <;> simp only [hexCentre, hu.1, hu.2]
    rw [e1, e2]
    exact this

theorem flows_of (hc : Clocked tp m cs) (hZ : m.Z = if crossings then 1 else 0) {g u c v : Coord} (h : Conn tp m cs A g u)
    (hcg : Over crossings c g) (hvu : Over crossings v u) : Flows tp m cs c v := by
  obtain ⟨ht, hu⟩ := h.tiles hc.small
  have hcb := hcg.inBounds hZ ht
  have hvb := hvu.inBounds hZ hu
  have hg := tile_inBounds ht
  have hadj := (List.mem_filter.1 h.2.1).1
  have hclk := (List.mem_filter.1 h.2.1).2
  have hgu : g ≠ u := by
    rintro rfl
    simp [isOutgoingClocked] at hclk
  obtain ⟨c1, c2, c3, c4⟩ := hcg
  obtain ⟨v1, v2, v3, v4⟩ := hvu
  obtain ⟨g1, g2, -⟩ := mem_tiles.1 ht
  obtain ⟨u1, u2, -⟩ := mem_tiles.1 hu
  have hne : v ≠ c := by
    intro e
    apply hgu
    rw [e] at v2 v3
    obtain ⟨gx, gy, gz, gd⟩ := g
    obtain ⟨ux, uy, uz, ud⟩ := u
    simp only at *
    simp [← c2, ← c3, v2, v3, g1, g2, u1, u2]
  have kc : ({ c with z := 0 } : Coord) = g := by
    obtain ⟨gx, gy, gz, gd⟩ := g
    obtain ⟨cx, cy, cz, cd⟩ := c
    simp only at *
    simp [c1, c2, c3, g1, g2]
  have kv : ({ v with z := 0 } : Coord) = u := by
    obtain ⟨ux, uy, uz, ud⟩ := u
    obtain ⟨vx, vy, vz, vd⟩ := v
    simp only at *
    simp [v1, v2, v3, u1, u2]
  have hin : isIncomingClocked cs v c = true := by
    unfold isIncomingClocked
    rw [if_neg hne, hc.flat c, hc.flat v, kc, kv]
    unfold isOutgoingClocked at hclk
    rwa [if_neg hgu] at hclk
  have hel : Topo.isAdjacentElevationOf tp m v c = true := by
    unfold Topo.isAdjacentElevationOf
    simp only [Bool.or_eq_true]
    have key : ∀ v' : Coord, InBounds m v' → v'.x = u.x → v'.y = u.y → v'.z = c.z → Topo.isAdjacentOf tp m v' c = true :=
      fun v' h1 h2 h3 h4 => adjacent_same hc.small hg hadj hcb h1 ⟨c2, c3⟩ ⟨h2, h3⟩ h4.symm
    by_cases e : v.z = c.z
    · exact .inl (.inl (key v hvb v2 v3 e))
    · have hcr : crossings = true := by
        rcases c4 with c4 | c4
        · rcases v4 with v4 | v4
          · omega
          · exact v4.2
        · exact c4.2
      rw [hcr, if_pos rfl] at hZ
      by_cases e0 : v.z = 0
      · refine .inl (.inr (key _ ?_ ?_ ?_ ?_)) <;> simp only [Cart.above, e0, hZ] <;> (try simp [InBounds, v1, hZ]) <;>
          first
          | exact ⟨hvb.2.1, hvb.2.2.1⟩
          | exact v2
          | exact v3
          | omega
      · refine .inr (key _ ?_ ?_ ?_ ?_) <;> simp only [Cart.below, if_neg e0] <;> (try simp only [InBounds, v1, hZ]) <;>
          first
          | exact ⟨trivial, hvb.2.1, hvb.2.2.1, by omega⟩
          | exact ⟨rfl, hvb.2.1, hvb.2.2.1, by omega⟩
          | exact v2
          | exact v3
          | omega
  unfold Flows
  rw [hel, hin]
  rfl

end

/-! ## Values -/

/-- The value on a tile of a layout with `K` inputs. -/
inductive TVal (tab : Nat → List Bool → Bool) (tp : Topo) (m : Dim) (cs : Scheme) (K : Nat) (s : State) (a : Nat → Bool) : Coord → Bool → Prop
  | pi (t : Coord) (k : Nat) (ht : t.d = false) (hn : s.tileNode t = some (2 + k)) (hk : k < K) : TVal tab tp m cs K s a t (a k)
  | gate (t : Coord) (n : Nat) (bs : List Bool) (ht : t.d = false) (hn : s.tileNode t = some n) (hk : 2 + K ≤ n)
      (hl : bs.length = (s.nodes n).children.length)
      (hf : ∀ i, i < bs.length → Flows tp m cs ((s.nodes n).children.getD i const0) t)
      (hv : ∀ i, i < bs.length → TVal tab tp m cs K s a ((s.nodes n).children.getD i const0) (bs.getD i false)) :
      TVal tab tp m cs K s a t (tab (s.nodes n).fn bs)

section
variable {tab : Nat → List Bool → Bool} {tp : Topo} {m : Dim} {cs : Scheme} {K : Nat} {s s' : State} {a : Nat → Bool}

theorem TVal.mono (he : Ortho.Ext s s') {t : Coord} {b : Bool} (h : TVal tab tp m cs K s a t b) : TVal tab tp m cs K s' a t b := by
  induction h with
  | pi t k ht hn hk => exact .pi t k ht (he t _ ht hn).1 hk
  | gate t n bs ht hn hk hl hf hv ih =>
    obtain ⟨e1, e2, e3⟩ := he t n ht hn
    rw [← e2]
    exact .gate t n bs ht e1 hk (by rw [e3]; exact hl) (by rw [e3]; exact hf) (by rw [e3]; exact ih)

theorem TVal.occupied {t : Coord} {b : Bool} (h : TVal tab tp m cs K s a t b) : t.d = false ∧ ∃ n, s.tileNode t = some n := by
  cases h with
  | pi _ k ht hn => exact ⟨ht, _, hn⟩
  | gate _ n bs ht hn => exact ⟨ht, _, hn⟩

theorem tile_of (w : WF s) {t : Coord} {n : Nat} (ht : s.tileNode t = some n) :
    s.getTile (s.getNode t) = t ∧ s.getNode t = n ∧ s.getTile n = t := by
  have h1 : s.getNode t = n := by simp [State.getNode, ht]
  have h2 : s.getTile n = t := by simp [State.getTile, (w.inv _ _).1 ht]
  exact ⟨by rw [h1, h2], h1, h2⟩

theorem TVal.toVal (w : WF s) (hi : s.inputs = (List.range K).map (2 + ·)) {t : Coord} {b : Bool} (h : TVal tab tp m cs K s a t b) :
    Val tab m tp cs s a (s.getNode t) b := by
  induction h with
  | pi t k ht hn hk =>
    rw [(tile_of w hn).2.1]
    refine .input k _ ?_
    rw [hi]
    simp [hk]
  | gate t n bs ht hn hk hl hf hv ih =>
    obtain ⟨-, e1, e2⟩ := tile_of w hn
    have hch : ∀ c ∈ (s.nodes n).children, Flows tp m cs c t ∧ s.getTile (s.getNode c) = c := by
      intro c hc
      obtain ⟨i, hi, rfl⟩ := List.mem_iff_getElem.1 hc
      have e : (s.nodes n).children.getD i const0 = (s.nodes n).children[i] := by simp [List.getD_eq_getElem?_getD, hi]
      rw [← e]
      refine ⟨hf i (by omega), ?_⟩
      obtain ⟨-, j, hj⟩ := (hv i (by omega)).occupied
      exact (tile_of w hj).1
    have hfan : s.fanins m tp cs true n = (s.nodes n).children := by
      unfold State.fanins
      rw [if_neg (by omega)]
      simp only [e2]
      rw [List.filter_eq_self.2 ?_]
      · conv_rhs => rw [← List.map_id (s.nodes n).children]
        exact List.map_congr_left (fun c hc => (hch c hc).2)
      · intro c hc
        rw [(hch c hc).2]
        exact (hch c hc).1
    rw [e1]
    refine .gate n bs (by omega) ?_ (by rw [hfan]; exact hl) ?_
    · rw [hi]
      simp
      omega
    · rw [hfan]
      exact ih

end

/-! ## Branches -/

theorem look_branch {k : Nat} {B : Branches} {n t : Nat} {c : Coord} (h : t ∈ (B n).map Prod.fst ∨ (B n).length < k) :
    look (branch k B n t c) n t = c := by
  unfold look branch
  rw [if_pos rfl]
  by_cases ha : (B n).any (fun b => b.1 == t) = true
  · rw [if_pos ha]
    simp only [List.any_eq_true, beq_iff_eq] at ha
    obtain ⟨b, hb, e⟩ := ha
    generalize B n = l at hb
    clear h
    induction l with
    | nil => cases hb
    | cons x l ih =>
      rw [List.map_cons, List.find?_cons]
      by_cases hx : x.1 = t
      · simp [hx]
      · rcases List.mem_cons.1 hb with e' | hb
        · exact absurd (e' ▸ e) hx
        · simp only [if_neg hx]
          rw [show (x.1 == t) = false by simpa using hx]
          exact ih hb
  · rw [if_neg ha]
    have hno : ∀ b ∈ B n, (b.1 == t) = false := by
      intro b hb
      cases e : b.1 == t with
      | false => rfl
      | true => exact absurd (List.any_eq_true.2 ⟨b, hb, e⟩) ha
    rcases h with h | h
    · obtain ⟨b, hb, e⟩ := List.mem_map.1 h
      have := hno b hb
      rw [e] at this
      simp at this
    · rw [if_pos h, List.find?_append, List.find?_eq_none.2 (by intro b hb; rw [hno b hb]; simp)]
      simp

theorem look_branch_ne {k : Nat} {B : Branches} {n t n' t' : Nat} {c : Coord} (h : ¬ (n' = n ∧ t' = t)) :
    look (branch k B n t c) n' t' = look B n' t' := by
  unfold look branch
  by_cases hn : n' = n
  · subst hn
    have ht : t' ≠ t := fun e => h ⟨rfl, e⟩
    rw [if_pos rfl]
    congr 2
    split_ifs with h1 h2
    · clear h1
      induction B n' with
      | nil => rfl
      | cons x l ih =>
        rw [List.map_cons, List.find?_cons, List.find?_cons]
        by_cases hx : x.1 = t
        · rw [if_pos hx]
          have e1 : (t == t') = false := by simpa using Ne.symm ht
          have e2 : (x.1 == t') = false := by rw [hx]; exact e1
          simp only [e1, e2]
          exact ih
        · rw [if_neg hx]
          split
          · rfl
          · exact ih
    · rw [List.find?_append]
      have e1 : (t == t') = false := by simpa using Ne.symm ht
      simp [e1]
    · rfl
  · rw [if_neg hn]

theorem keys_branch {k : Nat} {B : Branches} {n t : Nat} {c : Coord} (h : t ∈ (B n).map Prod.fst ∨ (B n).length < k) (i : Nat) :
    ((branch k B n t c) i).map Prod.fst =
      if i = n ∧ t ∉ (B n).map Prod.fst then (B n).map Prod.fst ++ [t] else (B i).map Prod.fst := by
  unfold branch
  by_cases hi : i = n
  · subst hi
    rw [if_pos rfl]
    by_cases ht : t ∈ (B i).map Prod.fst
    · have ha : (B i).any (fun b => b.1 == t) = true := by
        obtain ⟨b, hb, e⟩ := List.mem_map.1 ht
        exact List.any_eq_true.2 ⟨b, hb, by simpa using e⟩
      rw [if_pos ha, if_neg (fun e => e.2 ht), List.map_map]
      apply List.map_congr_left
      intro b _
      simp only [Function.comp_apply]
      split_ifs with e
      · exact e.symm
      · rfl
    · have ha : ¬ (B i).any (fun b => b.1 == t) = true := by
        intro ha
        obtain ⟨b, hb, e⟩ := List.any_eq_true.1 ha
        exact ht (List.mem_map.2 ⟨b, hb, by simpa using e⟩)
      rw [if_neg ha, if_pos (h.resolve_left ht), if_pos ⟨rfl, ht⟩]
      simp
  · rw [if_neg hi, if_neg (fun e => hi e.1)]

end Verif.PhysicalDesign.Exact
