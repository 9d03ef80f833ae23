import Verif.Networks.MincrossFacts
import Verif.Networks.MincrossSpec

/-!
# Facts on the minimization of crossings: the crossings are counted
-/
namespace Verif.Mincross

open Verif.Views

variable {N : Net} {V : DepthView} {R : Ranks}

theorem foldl_add_sum {α : Type} (f : α → Nat) : ∀ (l : List α) (t : Nat), l.foldl (fun t k => t + f k) t = t + (l.map f).sum
  | [], t => by simp
  | a :: l, t => by rw [List.foldl_cons, foldl_add_sum f l]; simp; omega

theorem sum_ite_range (x : Nat) : ∀ (n a : Nat), ((List.range' a n).map (fun k => if k = x then 1 else 0)).sum =
    if a ≤ x ∧ x < a + n then 1 else 0
  | 0, a => by simp
  | n + 1, a => by
    rw [List.range'_succ, List.map_cons, List.sum_cons, sum_ite_range x n (a + 1)]
    split_ifs <;> omega

theorem sum_count_range (p m : Nat) : ∀ (seen : List Nat), (∀ x ∈ seen, x ≤ m) →
    ((List.range' (p + 1) (m - p)).map (fun k => seen.count k)).sum = seen.countP (fun x => decide (p < x))
  | [], _ => by
    simp
  | x :: seen, h => by
    have ih := sum_count_range p m seen (fun y hy => h y (by simp [hy]))
    have hx := h x (by simp)
    rw [List.countP_cons, ← ih]
    have : ∀ l : List Nat, (l.map (fun k => (x :: seen).count k)).sum = (l.map (fun k => seen.count k)).sum + (l.map (fun k => if k = x then 1 else 0)).sum := by
      intro l
      induction l with
      | nil => rfl
      | cons a l ih' =>
        simp only [List.map_cons, List.sum_cons]
        rw [ih', List.count_cons]
        have : (if (x == a) = true then 1 else 0) = (if a = x then 1 else 0) := by
          by_cases e : a = x
          · subst e; simp
          · rw [if_neg e, if_neg (by simp; exact fun h => e h.symm)]
        rw [this]; omega
    rw [this, sum_ite_range]
    simp only [decide_eq_true_eq]
    split_ifs <;> omega

/-- The array and the maximum describe the targets seen so far. -/
structure Saw (s : Cnt) (len : Nat) (seen : List Nat) : Prop where
  len : s.penalty.length = len
  cnt : ∀ k, s.penalty.getD k 0 = seen.count k
  max : ∀ x ∈ seen, x ≤ s.maxPos

theorem node_spec {s : Cnt} {len : Nat} {seen : List Nat} (h : Saw s len seen) (targets : List Nat) (ht : ∀ p ∈ targets, p < len) :
    ∃ s', s.node targets = some s' ∧ Saw s' len (seen ++ targets) ∧
      s'.total = s.total + (targets.map (fun p => seen.countP (fun x => decide (p < x)))).sum := by
  have htot : targets.foldl (fun t p => (List.range' (p + 1) (s.maxPos - p)).foldl (fun t k => t + s.penalty.getD k 0) t) s.total =
      s.total + (targets.map (fun p => seen.countP (fun x => decide (p < x)))).sum := by
    rw [← foldl_add_sum]
    congr 1
    funext t p
    rw [foldl_add_sum, ← sum_count_range p s.maxPos seen h.max]
    congr 2
    refine List.map_congr_left (fun k _ => h.cnt k)
  unfold Cnt.node
  dsimp only
  rw [htot]
  generalize s.total + (targets.map (fun p => seen.countP (fun x => decide (p < x)))).sum = tot
  have hs : Saw { s with total := tot } len seen := ⟨h.len, h.cnt, h.max⟩
  have ht0 : ({ s with total := tot } : Cnt).total = tot := rfl
  generalize ({ s with total := tot } : Cnt) = s0 at hs ht0
  clear h htot
  induction targets generalizing s0 seen with
  | nil => exact ⟨s0, rfl, by rw [List.append_nil]; exact hs, ht0⟩
  | cons p l ih =>
    rw [List.foldlM_cons]
    have hp : p < s0.penalty.length := by rw [hs.len]; exact ht p (by simp)
    rw [if_pos hp]
    obtain ⟨s', e, h1, h2⟩ := ih (seen := seen ++ [p]) (fun q hq => ht q (by simp [hq]))
      { s0 with maxPos := max s0.maxPos p, penalty := s0.penalty.set p (s0.penalty.getD p 0 + 1) }
      ⟨by simp [hs.len], fun k => by
        rw [List.count_append, ← hs.cnt k]
        simp only [List.getD_eq_getElem?_getD, List.getElem?_set, List.count_cons, List.count_nil]
        by_cases e : p = k
        · subst e; simp [hp]
        · simp [e], fun x hx => by
        rcases List.mem_append.1 hx with hx | hx
        · have := hs.max x hx
          show x ≤ max s0.maxPos p
          omega
        · rw [List.mem_singleton] at hx
          show x ≤ max s0.maxPos p
          omega⟩ ht0
    refine ⟨s', e, ?_, h2⟩
    rw [List.append_cons]
    exact h1

/-! ## The list of the crossings -/

/-- The edges from the nodes of a list. -/
def edgesOf (N : Net) (pre : List Nat) : List (Nat × Nat) := pre.flatMap (fun u => (fanouts N u).map (fun v => (u, v)))

/-- The crossings of the edges of `u'` with those of earlier nodes. -/
def newCross (N : Net) (R : Ranks) (pre : List Nat) (u' : Nat) : List ((Nat × Nat) × (Nat × Nat)) :=
  (fanouts N u').flatMap (fun v' => ((edgesOf N pre).filter (fun e => decide (posOf R v' < posOf R e.2))).map (fun e => (e, (u', v'))))

/-- The crossings of a rank. -/
def rankCross (N : Net) (R : Ranks) : List Nat → List Nat → List ((Nat × Nat) × (Nat × Nat))
  | _, [] => []
  | pre, u' :: rest => newCross N R pre u' ++ rankCross N R (pre ++ [u']) rest

theorem newCross_length (pre : List Nat) (u' : Nat) : (newCross N R pre u').length =
    (((fanouts N u').map (posOf R)).map (fun p => ((edgesOf N pre).map (fun e => posOf R e.2)).countP (fun x => decide (p < x)))).sum := by
  unfold newCross
  rw [List.length_flatMap, List.map_map]
  congr 1
  refine List.map_congr_left (fun v' _ => ?_)
  simp only [List.length_map, Function.comp, List.countP_map]
  rw [← List.countP_eq_length_filter]
  rfl

theorem fanouts_nodup (n : Nat) : (fanouts N n).Nodup := List.nodup_range.filter _

theorem edgesOf_nodup {pre : List Nat} (h : pre.Nodup) : (edgesOf N pre).Nodup := by
  unfold edgesOf
  rw [List.nodup_flatMap]
  refine ⟨fun u _ => (fanouts_nodup u).map (fun a b e => (Prod.mk.inj e).2), ?_⟩
  refine List.Pairwise.imp ?_ h
  intro a b hab
  show List.Disjoint _ _
  intro x hx hy
  rw [List.mem_map] at hx hy
  obtain ⟨_, _, rfl⟩ := hx
  obtain ⟨_, _, e⟩ := hy
  exact hab (Prod.mk.inj e).1.symm

theorem mem_edgesOf {pre : List Nat} {e : Nat × Nat} : e ∈ edgesOf N pre ↔ e.1 ∈ pre ∧ e.2 ∈ fanouts N e.1 := by
  unfold edgesOf
  rw [List.mem_flatMap]
  constructor
  · rintro ⟨u, hu, he⟩
    rw [List.mem_map] at he
    obtain ⟨v, hv, rfl⟩ := he
    exact ⟨hu, hv⟩
  · rintro ⟨h1, h2⟩
    exact ⟨e.1, h1, List.mem_map.2 ⟨e.2, h2, rfl⟩⟩

theorem mem_newCross {pre : List Nat} {u' : Nat} {q : (Nat × Nat) × (Nat × Nat)} : q ∈ newCross N R pre u' ↔
    q.2.1 = u' ∧ q.1.1 ∈ pre ∧ q.1.2 ∈ fanouts N q.1.1 ∧ q.2.2 ∈ fanouts N u' ∧ posOf R q.2.2 < posOf R q.1.2 := by
  unfold newCross
  simp only [List.mem_flatMap, List.mem_map, List.mem_filter, decide_eq_true_eq, mem_edgesOf]
  constructor
  · rintro ⟨v', hv', e, ⟨he, hp⟩, rfl⟩
    exact ⟨rfl, he.1, he.2, hv', hp⟩
  · rintro ⟨h1, h2, h3, h4, h5⟩
    exact ⟨q.2.2, h4, q.1, ⟨⟨h2, h3⟩, h5⟩, by rw [← h1]⟩

theorem newCross_nodup {pre : List Nat} (h : pre.Nodup) (u' : Nat) : (newCross N R pre u').Nodup := by
  unfold newCross
  rw [List.nodup_flatMap]
  refine ⟨fun v' _ => ((edgesOf_nodup h).filter _).map (fun a b e => (Prod.mk.inj e).1), ?_⟩
  refine List.Pairwise.imp ?_ (fanouts_nodup u')
  intro a b hab
  show List.Disjoint _ _
  intro x hx hy
  rw [List.mem_map] at hx hy
  obtain ⟨_, _, rfl⟩ := hx
  obtain ⟨_, _, e⟩ := hy
  exact hab (Prod.mk.inj (Prod.mk.inj e).2).2.symm

theorem mem_rankCross : ∀ (rest pre : List Nat) (q : (Nat × Nat) × (Nat × Nat)), q ∈ rankCross N R pre rest ↔
    ∃ j, rest[j]? = some q.2.1 ∧ q.1.1 ∈ pre ++ rest.take j ∧ q.1.2 ∈ fanouts N q.1.1 ∧ q.2.2 ∈ fanouts N q.2.1 ∧
      posOf R q.2.2 < posOf R q.1.2
  | [], pre, q => by simp [rankCross]
  | u :: rest, pre, q => by
    rw [rankCross, List.mem_append, mem_newCross, mem_rankCross rest]
    constructor
    · rintro (⟨h1, h2, h3, h4, h5⟩ | ⟨j, h1, h2, h3⟩)
      · exact ⟨0, by rw [h1]; rfl, by simpa using h2, h3, by rw [h1]; exact h4, h5⟩
      · exact ⟨j + 1, by simpa using h1, by simpa using h2, h3⟩
    · rintro ⟨j, h1, h2, h3, h4, h5⟩
      cases j with
      | zero =>
        have e : u = q.2.1 := by simpa using h1
        exact Or.inl ⟨e.symm, by simpa using h2, h3, by rw [e]; exact h4, h5⟩
      | succ j => exact Or.inr ⟨j, by simpa using h1, by simpa using h2, h3, h4, h5⟩

theorem rankCross_nodup : ∀ (rest pre : List Nat), (pre ++ rest).Nodup → (rankCross N R pre rest).Nodup
  | [], _, _ => List.nodup_nil
  | u :: rest, pre, h => by
    rw [rankCross, List.nodup_append]
    have h' : ((pre ++ [u]) ++ rest).Nodup := by simpa using h
    refine ⟨newCross_nodup (List.nodup_append.1 h).1 u, rankCross_nodup rest _ h', ?_⟩
    intro a ha b hb e
    subst e
    rw [mem_newCross] at ha
    rw [mem_rankCross] at hb
    obtain ⟨j, hj, -⟩ := hb
    rw [ha.1] at hj
    have := (List.nodup_cons.1 (List.nodup_append.1 h).2.1).1
    exact this (List.mem_of_getElem? hj)

/-! ## The loops -/

theorem rank_spec {len : Nat} (h : Ranked N V R) : ∀ (rest pre : List Nat) (s : Cnt), Saw s len ((edgesOf N pre).map (fun e => posOf R e.2)) →
    (∀ u ∈ rest, ∀ v ∈ fanouts N u, posOf R v < len) →
    ∃ s', rest.foldlM (fun (s : Cnt) n => (positions R (fanouts N n)).bind s.node) s = some s' ∧
      s'.total = s.total + (rankCross N R pre rest).length
  | [], _, s, _, _ => ⟨s, rfl, rfl⟩
  | u :: rest, pre, s, hs, hl => by
    rw [List.foldlM_cons, positions_some h _ (fun m hm => fanouts_node hm), Option.bind_some]
    obtain ⟨s1, e1, h1, t1⟩ := node_spec hs ((fanouts N u).map (posOf R)) (by
      intro p hp
      obtain ⟨v, hv, rfl⟩ := List.mem_map.1 hp
      exact hl u (by simp) v hv)
    have hse : (edgesOf N (pre ++ [u])).map (fun e => posOf R e.2) = (edgesOf N pre).map (fun e => posOf R e.2) ++ (fanouts N u).map (posOf R) := by
      unfold edgesOf
      simp [List.flatMap_append, Function.comp_def]
    rw [← hse] at h1
    obtain ⟨s2, e2, t2⟩ := rank_spec h rest (pre ++ [u]) s1 h1 (fun w hw => hl w (by simp [hw]))
    refine ⟨s2, by rw [e1]; exact e2, ?_⟩
    rw [t2, t1, rankCross, List.length_append, newCross_length]
    omega

theorem edge_iff {e : Nat × Nat} : Edge N e ↔ IsNode N e.1 ∧ e.2 ∈ fanouts N e.1 := by
  unfold Edge IsNode
  rw [mem_fanouts]
  tauto

/-- The nodes of rank `r`. -/
def rankAt (R : Ranks) (r : Nat) : List Nat := (R.ranks[r]?).getD []

theorem crossRank_spec (h : Ranked N V R) (hb : Balanced N V) (total : Nat) {r : Nat} (hr : r < V.depth) :
    crossRank N R total r = some (total + (rankCross N R [] (rankAt R r)).length) := by
  have hr0 : r < R.ranks.length := by rw [h.len]; omega
  have hr1 : r + 1 < R.ranks.length := by rw [h.len]; omega
  have e0 : R.ranks[r]? = some R.ranks[r] := List.getElem?_eq_getElem hr0
  have e1 : R.ranks[r + 1]? = some R.ranks[r + 1] := List.getElem?_eq_getElem hr1
  unfold crossRank rankAt
  rw [e0, e1]
  simp only [Option.bind_some, Option.getD_some]
  obtain ⟨s', e, t⟩ := rank_spec (len := R.ranks[r + 1].length + 1) h R.ranks[r] [] ⟨total, List.replicate (R.ranks[r + 1].length + 1) 0, 0⟩
    ⟨by simp, fun k => by simp [edgesOf, List.getD_eq_getElem?_getD, List.getElem?_replicate]; split <;> rfl, by simp [edgesOf]⟩ (by
      intro u hu v hv
      have hu' := (h.mem_rank e0).1 hu
      have hv' := hb (u, v) (edge_iff.2 ⟨hu'.1, hv⟩) r hu'.2
      have := at_posOf h (fanouts_node hv) hv'
      obtain ⟨rank, hrk, hi⟩ := at_some.1 this
      rw [e1] at hrk
      obtain rfl := Option.some.inj hrk
      have := (List.getElem?_eq_some_iff.1 hi).1
      omega)
  rw [e, Option.map_some, t]

/-- All crossings. -/
def allCross (N : Net) (V : DepthView) (R : Ranks) : List ((Nat × Nat) × (Nat × Nat)) :=
  (List.range V.depth).flatMap (fun r => rankCross N R [] (rankAt R r))

theorem ncross_spec (h : Ranked N V R) (hb : Balanced N V) : ncross N V R = some (allCross N V R).length := by
  unfold ncross allCross
  have key : ∀ k ≤ V.depth, (List.range k).foldlM (crossRank N R) 0 =
      some ((List.range k).flatMap (fun r => rankCross N R [] (rankAt R r))).length := by
    intro k
    induction k with
    | zero => intro _; rfl
    | succ k ih =>
      intro hk
      rw [List.range_succ, List.foldlM_append, ih (by omega)]
      show [k].foldlM (crossRank N R) _ = _
      rw [List.foldlM_cons, crossRank_spec h hb _ (by omega)]
      simp [List.flatMap_append]
  exact key V.depth (Nat.le_refl _)

theorem mem_rank_cross (h : Ranked N V R) {r : Nat} (hr : r ≤ V.depth) (q : (Nat × Nat) × (Nat × Nat)) :
    q ∈ rankCross N R [] (rankAt R r) ↔ Edge N q.1 ∧ Edge N q.2 ∧ V.level q.1.1 = some r ∧ V.level q.2.1 = some r ∧
      posOf R q.1.1 < posOf R q.2.1 ∧ posOf R q.2.2 < posOf R q.1.2 := by
  have hr0 : r < R.ranks.length := by rw [h.len]; omega
  have e0 : R.ranks[r]? = some R.ranks[r] := List.getElem?_eq_getElem hr0
  have hrank : rankAt R r = R.ranks[r] := by unfold rankAt; rw [e0]; rfl
  have hpos : ∀ i m, (R.ranks[r])[i]? = some m → posOf R m = i := by
    intro i m hi
    unfold posOf; rw [(h.node r i m (at_some.2 ⟨_, e0, hi⟩)).2.2]; rfl
  rw [hrank, mem_rankCross]
  simp only [List.nil_append]
  constructor
  · rintro ⟨j, h1, h2, h3, h4, h5⟩
    obtain ⟨i, hi⟩ := List.mem_iff_getElem?.1 h2
    have hij : i < j := by
      have := (List.getElem?_eq_some_iff.1 hi).1
      rw [List.length_take] at this
      omega
    rw [List.getElem?_take_of_lt hij] at hi
    have m1 := (h.mem_rank e0).1 (List.mem_of_getElem? hi)
    have m2 := (h.mem_rank e0).1 (List.mem_of_getElem? h1)
    exact ⟨edge_iff.2 ⟨m1.1, h3⟩, edge_iff.2 ⟨m2.1, h4⟩, m1.2, m2.2, by rw [hpos i _ hi, hpos j _ h1]; exact hij, h5⟩
  · rintro ⟨h1, h2, h3, h4, h5, h6⟩
    have e1 := edge_iff.1 h1
    have e2 := edge_iff.1 h2
    obtain ⟨rk, hk, hi⟩ := at_some.1 (at_posOf h e1.1 h3)
    obtain ⟨rk', hk', hj⟩ := at_some.1 (at_posOf h e2.1 h4)
    rw [e0] at hk hk'
    obtain rfl := Option.some.inj hk
    obtain rfl := Option.some.inj hk'
    refine ⟨posOf R q.2.1, hj, ?_, e1.2, e2.2, h6⟩
    rw [List.mem_iff_getElem?]
    exact ⟨posOf R q.1.1, by rw [List.getElem?_take_of_lt h5]; exact hi⟩

/-- `ncross` counts the crossings. -/
theorem ncross_counts (H : N.WF) (hV : depthView N {} = some V) (h : Ranked N V R) (hb : Balanced N V) :
    ∃ c, ncross N V R = some c ∧ Counts (Crosses N V R) c := by
  refine ⟨_, ncross_spec h hb, allCross N V R, ?_, ?_, rfl⟩
  · unfold allCross
    rw [List.nodup_flatMap]
    constructor
    · intro r hr
      rw [List.mem_range] at hr
      have hr0 : r < R.ranks.length := by rw [h.len]; omega
      have e0 : R.ranks[r]? = some R.ranks[r] := List.getElem?_eq_getElem hr0
      refine rankCross_nodup _ [] ?_
      rw [List.nil_append]
      unfold rankAt; rw [e0]
      exact h.rank_nodup e0
    · rw [List.pairwise_iff_getElem]
      intro i j hi hj hij
      rw [List.length_range] at hi hj
      rw [List.getElem_range, List.getElem_range]
      show List.Disjoint _ _
      intro x hx hy
      rw [mem_rank_cross h (by omega)] at hx hy
      have := Option.some.inj (hx.2.2.1.symm.trans hy.2.2.1)
      omega
  · intro q
    unfold allCross
    rw [List.mem_flatMap]
    constructor
    · rintro ⟨r, hr, hq⟩
      rw [List.mem_range] at hr
      rw [mem_rank_cross h (by omega)] at hq
      obtain ⟨h1, h2, h3, h4, h5, h6⟩ := hq
      refine ⟨h1, h2, h3.trans h4.symm, _, _, _, _, ranked_pos h (edge_iff.1 h1).1, ranked_pos h (edge_iff.1 h2).1,
        ranked_pos h (fanouts_node (edge_iff.1 h1).2), ranked_pos h (fanouts_node (edge_iff.1 h2).2), h5, h6⟩
    · rintro ⟨h1, h2, h3, a, b, c, d, pa, pb, pc, pd, hab, hdc⟩
      obtain ⟨l, i, hl, -, -⟩ := h.place q.1.1 (edge_iff.1 h1).1
      have hl2 := hb q.1 h1 l hl
      have hd := (level_le_depth H hV hl2).2.2
      refine ⟨l, List.mem_range.2 (by omega), ?_⟩
      rw [mem_rank_cross h (by omega)]
      refine ⟨h1, h2, hl, h3 ▸ hl, ?_, ?_⟩
      · unfold posOf; rw [pa, pb]; exact hab
      · unfold posOf; rw [pc, pd]; exact hdc

end Verif.Mincross
