import Verif.Networks.MincrossCount

/-!
# C86: minimization of crossings
-/
namespace Verif.Mincross

open Verif.Views

variable {N : Net} {V : DepthView}

/-- Positions follow from the ranks. -/
theorem crosses_congr {R R' : Ranks} (h : Ranked N V R) (h' : Ranked N V R') (e : R.ranks = R'.ranks) (q : (Nat × Nat) × (Nat × Nat)) :
    Crosses N V R q ↔ Crosses N V R' q := by
  have key : ∀ n, IsNode N n → R.pos n = R'.pos n := by
    intro n hn
    obtain ⟨l, i, h1, h2, h3⟩ := h.place n hn
    have h3' : R'.at l i = some n := by unfold Ranks.at at h3 ⊢; rw [← e]; exact h3
    rw [h2, (h'.node l i n h3').2.2]
  unfold Crosses
  refine and_congr_right (fun h1 => and_congr_right (fun h2 => ?_))
  have e1 := edge_iff.1 h1
  have e2 := edge_iff.1 h2
  rw [key _ e1.1, key _ e2.1, key _ (fanouts_node e1.2), key _ (fanouts_node e2.2)]

theorem Counts.congr {α : Type} {P Q : α → Prop} {n : Nat} (h : Counts P n) (e : ∀ q, P q ↔ Q q) : Counts Q n := by
  obtain ⟨L, a, b, c⟩ := h
  exact ⟨L, a, fun q => (b q).trans (e q), c⟩

/-- The state of the search: the current ranks are valid, and so are the best ones, whose number of crossings is known. -/
structure Inv (ps : CrossParams) (N : Net) (V : DepthView) (R0 : Ranks) (c0 : Nat) (s : Search) : Prop where
  keeps : Keeps ps N V R0 s.R
  best : ∃ B, Keeps ps N V R0 B ∧ B.ranks = s.bestRanks ∧ Counts (Crosses N V B) s.best
  le : s.best ≤ c0

section
variable (H : N.WF) (hV : depthView N {} = some V) (hb : Balanced N V) (sort : SortFn) (hs : ∀ cmp l, (sort cmp l).Perm l)
  (ps : CrossParams) {R0 : Ranks} {c0 : Nat}
include H hV hb hs

theorem iterations_inv : ∀ (k iter trying : Nat) (s : Search), Inv ps N V R0 c0 s →
    ∃ s', iterations sort ps N V k iter trying s = some s' ∧ Inv ps N V R0 c0 s'
  | 0, _, _, s, h => ⟨s, rfl, h⟩
  | k + 1, iter, trying, s, h => by
    rw [iterations]
    split
    · exact ⟨s, rfl, h⟩
    · obtain ⟨R1, e1, h1⟩ := mincrossStep_keeps H sort hs ps iter h.keeps
      obtain ⟨c, e2, h2⟩ := ncross_counts H hV h1.1 hb
      rw [e1, Option.bind_some, e2, Option.bind_some]
      split
      · rename_i hle
        exact iterations_inv k _ _ _ ⟨h1, ⟨R1, h1, rfl, h2⟩, Nat.le_trans hle h.le⟩
      · exact iterations_inv k _ _ _ ⟨h1, h.best, h.le⟩

/-- After the passes, the current ranks are the best ones. -/
theorem passes_inv : ∀ (l : List Nat) (s : Search), Inv ps N V R0 c0 s →
    ∃ s', passes sort ps N V l s = some s' ∧ Inv ps N V R0 c0 s'
  | [], s, h => ⟨s, rfl, h⟩
  | p :: l, s, h => by
    rw [passes]
    obtain ⟨s1, e1, h1⟩ := iterations_inv H hV hb sort hs ps (if p ≤ 1 then min ps.initRefineMaxIters ps.maxIter else ps.maxIter) 0 0 s h
    rw [e1, Option.bind_some]
    obtain ⟨B, hB, eB, cB⟩ := h1.best
    obtain ⟨R2, e2, r2, q2⟩ := setAll_ok h1.keeps.1 hB.1
    rw [eB] at e2
    rw [e2, Option.bind_some]
    have k2 : Keeps ps N V R0 R2 := ⟨r2, fun hf => by rw [q2]; exact hB.2 hf⟩
    split
    · exact ⟨_, rfl, k2, h1.best, h1.le⟩
    · exact passes_inv l _ ⟨k2, h1.best, h1.le⟩

theorem minimize_spec (h0 : Ranked N V R0) (hc0 : Counts (Crosses N V R0) c0) :
    ∃ R F c, minimize sort ps N V R0 = some (R, F) ∧ Keeps ps N V R0 R ∧ Ranked N V F ∧ R.ranks = F.ranks ∧
      Counts (Crosses N V F) c ∧ c ≤ c0 := by
  unfold minimize
  obtain ⟨c, e, hc⟩ := ncross_counts H hV h0 hb
  obtain rfl := hc.unique hc0
  rw [e, Option.bind_some]
  have k0 : Keeps ps N V R0 R0 := ⟨h0, fun _ => rfl⟩
  obtain ⟨s, e1, h1⟩ := passes_inv H hV hb sort hs ps (R0 := R0) (c0 := c) [0, 1, 2] ⟨R0, c, c, R0.ranks⟩
    ⟨k0, ⟨R0, k0, rfl, hc⟩, Nat.le_refl _⟩
  rw [e1, Option.bind_some]
  -- the choice after the last transposition
  have hx : ∃ x : Ranks × List (List Nat), (if s.best > 0 then
      (transpose ps N V .ascending s.R).bind fun R => (ncross N V R).map fun cur =>
        if cur < s.best then (R, R.ranks) else (R, s.bestRanks)
     else some (s.R, s.bestRanks)) = some x ∧ Ranked N V x.1 ∧ ∃ B c', Keeps ps N V R0 B ∧ B.ranks = x.2 ∧ Counts (Crosses N V B) c' ∧ c' ≤ c := by
    obtain ⟨B, hB, eB, cB⟩ := h1.best
    split
    · obtain ⟨R1, e2, k1⟩ := transpose_keeps H ps .ascending h1.keeps
      obtain ⟨c1, e3, hc1⟩ := ncross_counts H hV k1.1 hb
      rw [e2, Option.bind_some, e3, Option.map_some]
      have hle := h1.le
      split
      · exact ⟨_, rfl, k1.1, R1, c1, k1, rfl, hc1, by omega⟩
      · exact ⟨_, rfl, k1.1, B, s.best, hB, eB, cB, hle⟩
    · exact ⟨_, rfl, h1.keeps.1, B, s.best, hB, eB, cB, h1.le⟩
  obtain ⟨x, e2, hx1, B, c', hB, eB, cB, hle⟩ := hx
  rw [e2, Option.bind_some]
  obtain ⟨R2, e3, r2, q2⟩ := setAll_ok h0 hB.1
  obtain ⟨F, e4, r4, q4⟩ := setAll_ok hx1 hB.1
  rw [eB] at e3 e4
  rw [e3, Option.bind_some, e4, Option.map_some]
  exact ⟨R2, F, c', rfl, ⟨r2, fun hf => by rw [q2]; exact hB.2 hf⟩, r4, q2.trans q4.symm,
    cB.congr (fun q => crosses_congr hB.1 r4 q4.symm q), hle⟩

end

/-- **C86** On every balanced network with valid ranks, whatever `std::ranges::sort` does with incomparable nodes, `mincross`
ends normally. The ranks it returns hold the same nodes, each at its level and at its position; the reported number is the number
of crossings of the returned network, and it is not larger than that of the given one. Fixed inputs keep their order, and without
optimization nothing is changed. -/
theorem C86_mincross (N : Net) (H : N.WF) (V : DepthView) (hV : depthView N {} = some V) (hb : Balanced N V) (sort : SortFn)
    (hs : ∀ cmp l, (sort cmp l).Perm l) (ps : CrossParams) (R : Ranks) (h : Ranked N V R) :
    ∃ R' c c0, mincross sort ps N V R = some (R', c) ∧ Ranked N V R' ∧
      (∀ (l : Nat) (a b : List Nat), R.ranks[l]? = some a → R'.ranks[l]? = some b → a.Perm b) ∧
      Counts (Crosses N V R') c ∧ Counts (Crosses N V R) c0 ∧ c ≤ c0 ∧
      (ps.fixedPis = true → R'.ranks[0]? = R.ranks[0]?) ∧ (ps.optimize = false → R' = R) := by
  obtain ⟨c0, e0, hc0⟩ := ncross_counts H hV h hb
  unfold mincross
  cases ho : ps.optimize with
  | false =>
    simp only [Bool.false_eq_true, if_false, Option.bind_some, e0, Option.map_some]
    exact ⟨R, c0, c0, rfl, h, fun l a b ha hb' => ranked_perm h h ha hb', hc0, hc0, Nat.le_refl _, fun _ => rfl, fun _ => rfl⟩
  | true =>
    obtain ⟨R', F, c, e1, k1, f1, q1, hc, hle⟩ := minimize_spec H hV hb sort hs ps h hc0
    obtain ⟨c1, e2, hc1⟩ := ncross_counts H hV f1 hb
    obtain rfl := hc.unique hc1
    simp only [if_true, e1, Option.bind_some, e2, Option.map_some]
    exact ⟨R', c, c0, rfl, k1.1, fun l a b ha hb' => ranked_perm h k1.1 ha hb',
      hc.congr (fun q => crosses_congr f1 k1.1 q1.symm q), hc0, hle, k1.2, fun h => (by cases h)⟩

/-! ## What the heuristics do not achieve -/

/-- A stable sort by insertion, as one choice of `std::ranges::sort`. -/
def insertBy (cmp : Nat → Nat → Bool) (x : Nat) : List Nat → List Nat
  | [] => [x]
  | y :: l => if cmp y x then y :: insertBy cmp x l else x :: y :: l

def insertionSort : SortFn := fun cmp l => l.foldr (insertBy cmp) []

theorem insertBy_perm (cmp : Nat → Nat → Bool) (x : Nat) : ∀ l, (insertBy cmp x l).Perm (x :: l)
  | [] => .refl _
  | y :: l => by
    rw [insertBy]
    split
    · exact ((insertBy_perm cmp x l).cons y).trans (List.Perm.swap x y l)
    · exact .refl _

theorem insertionSort_perm (cmp : Nat → Nat → Bool) : ∀ l, (insertionSort cmp l).Perm l
  | [] => .refl _
  | x :: l => (insertBy_perm cmp x _).trans ((insertionSort_perm cmp l).cons x)

/-- Inputs 1 and 2, gates 3 to 5 in rank 1 and 6 to 8 in rank 2. -/
def crossNet : Net where
  size := 9
  isConst := fun n => decide (n = 0)
  isCi := fun n => decide (1 ≤ n ∧ n ≤ 2)
  fanins := fun n => (match n with
    | 3 => [2] | 4 => [2, 1] | 5 => [2] | 6 => [5, 4] | 7 => [5, 4] | 8 => [4, 3] | _ => []).map (fun m => (m, false))
  pos := [(6, false), (7, false), (8, false)]

/-- **The result is not even locally optimal**: on this network, `mincross` with its default parameters returns ranks with 3
crossings, while exchanging the neighbours 4 and 3 in rank 1 leaves 2. The crossings between the last two ranks are not
considered when nodes of the last but one are transposed (mincross.hpp:441: `r + 1 < depth()`). -/
theorem C86_false_local : ((rankView crossNet).bind fun x => (mincross insertionSort {} crossNet x.1 x.2).bind fun y =>
    (y.1.swap x.1 4 3).bind fun S => (ncross crossNet x.1 S).map fun c =>
      decide (y.1.ranks = [[1, 2], [4, 3, 5], [8, 6, 7]] ∧ y.2 = 3 ∧ S.ranks = [[1, 2], [3, 4, 5], [8, 6, 7]] ∧ c = 2)) = some true := by
  decide +kernel

/-- Inputs 1 to 3, gates 4 to 8 in rank 1 and 9 in rank 2. -/
def staleNet : Net where
  size := 10
  isConst := fun n => decide (n = 0)
  isCi := fun n => decide (1 ≤ n ∧ n ≤ 3)
  fanins := fun n => (match n with
    | 4 => [2] | 5 => [2, 3] | 6 => [2] | 7 => [2] | 8 => [1] | 9 => [4, 5, 6, 7, 8] | _ => []).map (fun m => (m, false))
  pos := [(9, false)]

/-- **A transposition pass does not report the number of crossings it removes**: it works on a copy of the rank that it does not
update (mincross.hpp:415, 426-427), so that after the first exchange it exchanges nodes that are not neighbours. Here it removes
4 crossings, adds 2 again and reports 5. -/
theorem C86_false_reduction : ((rankView staleNet).bind fun x => (ncross staleNet x.1 x.2).bind fun c =>
    (transposeStep staleNet x.1 .ascending 0 x.2).bind fun y => (ncross staleNet x.1 y.1).map fun c' =>
      decide (x.2.ranks = [[1, 2, 3], [4, 5, 6, 7, 8], [9]] ∧ y.1.ranks = [[3, 1, 2], [4, 5, 6, 7, 8], [9]] ∧ y.2 = 5 ∧ c = 7 ∧ c' = 5)) =
    some true := by
  decide +kernel

/-! ## The hypotheses hold in concrete cases -/

example : ((rankView crossNet).bind fun x => (ncross crossNet x.1 x.2).bind fun c =>
    (mincross insertionSort { fixedPis := true } crossNet x.1 x.2).map fun y =>
      decide (x.2.ranks = [[1, 2], [3, 4, 5], [6, 7, 8]] ∧ c = 8 ∧ y.2 = 3 ∧ y.1.ranks[0]? = some [1, 2])) = some true := by decide +kernel

theorem crossNet_wf : crossNet.WF := by
  refine ⟨?_, by decide, by decide, fun n => n, fun n h => h, by decide⟩
  intro n h
  have h : n ≤ 2 := by
    simp only [crossNet, decide_eq_true_eq] at h
    omega
  have : n = 0 ∨ n = 1 ∨ n = 2 := by omega
  rcases this with rfl | rfl | rfl <;> rfl

/-- It is balanced. -/
example : ∀ V, depthView crossNet {} = some V → Balanced crossNet V := by
  have key : (depthView crossNet {}).map (fun V => (List.range 9).all (fun a => (List.range 9).all (fun b =>
      !decide ((a, false) ∈ crossNet.fanins b) || decide (V.level b = (V.level a).map (· + 1))))) = some true := by decide +kernel
  intro V hV e he l hl
  rw [hV] at key
  have key := Option.some.inj key
  simp only [List.all_eq_true, List.mem_range, Bool.or_eq_true, Bool.not_eq_true', decide_eq_false_iff_not, decide_eq_true_eq] at key
  obtain ⟨h1, h2, h3, -, -, b, hb⟩ := he
  have hbf : b = false := by
    simp only [crossNet, List.mem_map] at hb
    obtain ⟨_, _, e⟩ := hb
    exact (Prod.mk.inj e).2.symm
  subst hbf
  rw [(key e.1 h1 e.2 h3).resolve_left (fun h => h hb), hl]
  rfl

end Verif.Mincross
