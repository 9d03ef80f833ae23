import Verif.Networks.BfsProps
import Mathlib.Data.List.Pairwise
import Mathlib.Data.List.Perm.Basic

/-!
# Properties of ranks
-/
namespace Verif.Views

/-- Ranks that contain the nodes with the property `P`: each at its level and position, once, and nothing else; the width is that of a widest rank. -/
structure RankedOn (P : Nat → Prop) (V : DepthView) (R : Ranks) : Prop where
  len : R.ranks.length = V.depth + 1
  place : ∀ n, P n → ∃ l i, V.level n = some l ∧ R.pos n = some i ∧ R.at l i = some n
  node : ∀ l i n, R.at l i = some n → P n ∧ V.level n = some l ∧ R.pos n = some i
  bound : ∀ rank ∈ R.ranks, rank.length ≤ R.width
  attained : R.width = 0 ∨ ∃ rank ∈ R.ranks, rank.length = R.width

/-- Ranks that contain the nodes of a network other than constants. -/
def Ranked (N : Net) (V : DepthView) (R : Ranks) : Prop := RankedOn (fun n => n < N.size ∧ N.isConst n = false) V R

variable {N : Net} {V : DepthView} {R : Ranks} {P : Nat → Prop}

theorem at_some {l i n : Nat} : R.at l i = some n ↔ ∃ rank, R.ranks[l]? = some rank ∧ rank[i]? = some n := by
  unfold Ranks.at
  rw [Option.bind_eq_some_iff]

theorem assign_aux (rank : List Nat) : ∀ (k : Nat) (pos : Nat → Option Nat), rank.Nodup →
    (∀ (i n : Nat), rank[i]? = some n → (rank.zipIdx k).foldl (fun pos x m => if m = x.1 then some x.2 else pos m) pos n = some (k + i)) ∧
    ∀ m, m ∉ rank → (rank.zipIdx k).foldl (fun pos x m => if m = x.1 then some x.2 else pos m) pos m = pos m := by
  induction rank with
  | nil => intro k pos _; exact ⟨by simp, fun m _ => rfl⟩
  | cons a rank ih =>
    intro k pos hn
    rw [List.nodup_cons] at hn
    rw [List.zipIdx_cons, List.foldl_cons]
    obtain ⟨h1, h2⟩ := ih (k + 1) (fun m => if m = a then some k else pos m) hn.2
    refine ⟨?_, ?_⟩
    · intro i n hi
      cases i with
      | zero =>
        rw [List.getElem?_cons_zero, Option.some.injEq] at hi
        subst hi
        rw [h2 _ hn.1, if_pos rfl]
        rfl
      | succ i =>
        rw [List.getElem?_cons_succ] at hi
        rw [h1 i n hi]
        congr 1
        omega
    · intro m hm
      rw [List.mem_cons, not_or] at hm
      rw [h2 m hm.2, if_neg hm.1]

theorem assign_spec {rank : List Nat} (pos : Nat → Option Nat) (hn : rank.Nodup) :
    (∀ (i n : Nat), rank[i]? = some n → assign pos rank n = some i) ∧ ∀ m, m ∉ rank → assign pos rank m = pos m := by
  obtain ⟨h1, h2⟩ := assign_aux rank 0 pos hn
  exact ⟨fun i n hi => by have := h1 i n hi; rw [Nat.zero_add] at this; exact this, h2⟩

theorem RankedOn.rank_nodup (h : RankedOn P V R) {l : Nat} {rank : List Nat} (hr : R.ranks[l]? = some rank) : rank.Nodup := by
  rw [List.nodup_iff_injective_getElem]
  intro i j hij
  have hi : R.at l i.1 = some rank[i.1] := at_some.2 ⟨rank, hr, List.getElem?_eq_getElem _⟩
  have hj : R.at l j.1 = some rank[j.1] := at_some.2 ⟨rank, hr, List.getElem?_eq_getElem _⟩
  have h1 := (h.node _ _ _ hi).2.2
  have h2 := (h.node _ _ _ hj).2.2
  have e : rank[i.1] = rank[j.1] := hij
  rw [e, h2] at h1
  exact Fin.ext (Option.some.inj h1).symm

theorem RankedOn.mem_rank (h : RankedOn P V R) {l : Nat} {rank : List Nat} (hr : R.ranks[l]? = some rank) {n : Nat} :
    n ∈ rank ↔ P n ∧ V.level n = some l := by
  constructor
  · intro hn
    obtain ⟨i, hi⟩ := List.mem_iff_getElem?.1 hn
    obtain ⟨h1, h2, -⟩ := h.node l i n (at_some.2 ⟨rank, hr, hi⟩)
    exact ⟨h1, h2⟩
  · rintro ⟨h1, h2⟩
    obtain ⟨l', i, h3, -, h5⟩ := h.place n h1
    obtain rfl : l = l' := Option.some.inj (h2.symm.trans h3)
    obtain ⟨rank', hr', hi⟩ := at_some.1 h5
    obtain rfl : rank = rank' := Option.some.inj (hr.symm.trans hr')
    exact List.mem_of_getElem? hi

/-- Exchanging a rank for another one with the same nodes. -/
theorem RankedOn.replace (h : RankedOn P V R) {l : Nat} {rank nodes : List Nat} (hr : R.ranks[l]? = some rank) (hp : rank.Perm nodes)
    {pos : Nat → Option Nat} (h1 : ∀ (i n : Nat), nodes[i]? = some n → pos n = some i) (h2 : ∀ m, m ∉ nodes → pos m = R.pos m) :
    RankedOn P V { R with ranks := R.ranks.set l nodes, pos := pos } := by
  have hl : l < R.ranks.length := (List.getElem?_eq_some_iff.1 hr).1
  have hat : ∀ l' i, Ranks.at { R with ranks := R.ranks.set l nodes, pos := pos } l' i = if l' = l then nodes[i]? else R.at l' i := by
    intro l' i
    unfold Ranks.at
    show ((R.ranks.set l nodes)[l']?).bind _ = _
    by_cases e : l' = l
    · subst e
      rw [List.getElem?_set_self hl, if_pos rfl]
      rfl
    · rw [List.getElem?_set_ne (Ne.symm e), if_neg e]
  have hmem : ∀ n, n ∈ nodes ↔ P n ∧ V.level n = some l := fun n => (hp.mem_iff).symm.trans (h.mem_rank hr)
  refine ⟨?_, ?_, ?_, ?_, ?_⟩
  · show (R.ranks.set l nodes).length = _
    rw [List.length_set]
    exact h.len
  · intro n hn
    obtain ⟨l', i, k1, k2, k3⟩ := h.place n hn
    by_cases e : l' = l
    · subst e
      obtain ⟨j, hj⟩ := List.mem_iff_getElem?.1 ((hmem n).2 ⟨hn, k1⟩)
      exact ⟨l', j, k1, h1 j n hj, by rw [hat, if_pos rfl]; exact hj⟩
    · refine ⟨l', i, k1, ?_, by rw [hat, if_neg e]; exact k3⟩
      show pos n = some i
      rw [h2 n]
      · exact k2
      · intro hc
        exact e (Option.some.inj (k1.symm.trans ((hmem n).1 hc).2))
  · intro l' i n hn
    rw [hat] at hn
    by_cases e : l' = l
    · subst e
      rw [if_pos rfl] at hn
      obtain ⟨a1, a2⟩ := (hmem n).1 (List.mem_of_getElem? hn)
      exact ⟨a1, a2, h1 i n hn⟩
    · rw [if_neg e] at hn
      obtain ⟨a1, a2, a3⟩ := h.node l' i n hn
      refine ⟨a1, a2, ?_⟩
      show pos n = some i
      rw [h2 n]
      · exact a3
      · intro hc
        exact e (Option.some.inj (a2.symm.trans ((hmem n).1 hc).2))
  · intro r hr'
    rcases List.mem_or_eq_of_mem_set hr' with h' | rfl
    · exact h.bound r h'
    · rw [← hp.length_eq]
      exact h.bound rank (List.mem_of_getElem? hr)
  · rcases h.attained with h0 | ⟨r, hr', hw⟩
    · exact Or.inl h0
    · right
      obtain ⟨k, hk⟩ := List.mem_iff_getElem?.1 hr'
      by_cases e : k = l
      · subst e
        obtain rfl : rank = r := Option.some.inj (hr.symm.trans hk)
        exact ⟨nodes, List.mem_of_getElem? (List.getElem?_set_self hl), by rw [← hp.length_eq]; exact hw⟩
      · refine ⟨r, List.mem_of_getElem? (i := k) ?_, hw⟩
        show (R.ranks.set l nodes)[k]? = some r
        rw [List.getElem?_set_ne (Ne.symm e)]
        exact hk

/-! ## Construction -/

theorem RankedOn.insert (h : RankedOn P V R) {l n : Nat} (hl : V.level n = some l) (hn : ¬ P n) (hd : l ≤ V.depth) :
    ∃ R', R.insert l n = some R' ∧ RankedOn (fun m => P m ∨ m = n) V R' := by
  have hlt : l < R.ranks.length := by rw [h.len]; omega
  obtain ⟨rank, hr⟩ : ∃ rank, R.ranks[l]? = some rank := ⟨R.ranks[l]'hlt, List.getElem?_eq_getElem _⟩
  unfold Ranks.insert
  rw [hr]
  refine ⟨_, rfl, ?_⟩
  have hat : ∀ l' i, Ranks.at ⟨R.ranks.set l (rank ++ [n]), fun m => if m = n then some rank.length else R.pos m, max R.width (rank.length + 1)⟩ l' i =
      if l' = l then (rank ++ [n])[i]? else R.at l' i := by
    intro l' i
    unfold Ranks.at
    show ((R.ranks.set l (rank ++ [n]))[l']?).bind _ = _
    by_cases e : l' = l
    · subst e
      rw [List.getElem?_set_self hlt, if_pos rfl]
      rfl
    · rw [List.getElem?_set_ne (Ne.symm e), if_neg e]
  have hold : ∀ i, i < rank.length → (rank ++ [n])[i]? = R.at l i := by
    intro i hi
    rw [List.getElem?_append_left hi]
    unfold Ranks.at
    rw [hr]
    rfl
  refine ⟨?_, ?_, ?_, ?_, ?_⟩
  · show (R.ranks.set l (rank ++ [n])).length = _
    rw [List.length_set]
    exact h.len
  · rintro m (hm | rfl)
    · obtain ⟨l', i, k1, k2, k3⟩ := h.place m hm
      refine ⟨l', i, k1, ?_, ?_⟩
      · show (if m = n then _ else R.pos m) = _
        rw [if_neg (by rintro rfl; exact hn hm)]
        exact k2
      · rw [hat]
        by_cases e : l' = l
        · subst e
          obtain ⟨rank', hr', hi⟩ := at_some.1 k3
          obtain rfl : rank = rank' := Option.some.inj (hr.symm.trans hr')
          rw [if_pos rfl, hold i (List.getElem?_eq_some_iff.1 hi).1]
          exact k3
        · rw [if_neg e]
          exact k3
    · refine ⟨l, rank.length, hl, ?_, ?_⟩
      · show (if m = m then _ else R.pos m) = _
        rw [if_pos rfl]
      · rw [hat, if_pos rfl]
        simp
  · intro l' i m hm
    rw [hat] at hm
    have old : R.at l' i = some m → (P m ∨ m = n) ∧ V.level m = some l' ∧ (if m = n then some rank.length else R.pos m) = some i := by
      intro hm
      obtain ⟨a1, a2, a3⟩ := h.node l' i m hm
      refine ⟨Or.inl a1, a2, ?_⟩
      rw [if_neg (by rintro rfl; exact hn a1)]
      exact a3
    by_cases e : l' = l
    · subst e
      rw [if_pos rfl] at hm
      rcases Nat.lt_or_ge i rank.length with hi | hi
      · rw [hold i hi] at hm
        exact old hm
      · rw [List.getElem?_append_right hi] at hm
        obtain ⟨x, y⟩ := List.getElem?_eq_some_iff.1 hm
        simp only [List.length_singleton] at x
        have hi' : i = rank.length := by omega
        subst hi'
        simp only [Nat.sub_self, List.getElem_cons_zero] at y
        subst y
        exact ⟨Or.inr rfl, hl, if_pos rfl⟩
    · rw [if_neg e] at hm
      exact old hm
  · intro r hr'
    show r.length ≤ max R.width (rank.length + 1)
    rcases List.mem_or_eq_of_mem_set hr' with h' | rfl
    · have := h.bound r h'
      omega
    · rw [List.length_append, List.length_singleton]
      omega
  · right
    show ∃ r ∈ R.ranks.set l (rank ++ [n]), r.length = max R.width (rank.length + 1)
    have hnew : rank ++ [n] ∈ R.ranks.set l (rank ++ [n]) := List.mem_of_getElem? (List.getElem?_set_self hlt)
    by_cases hw : R.width ≤ rank.length + 1
    · exact ⟨_, hnew, by rw [List.length_append, List.length_singleton]; omega⟩
    · rcases h.attained with h0 | ⟨r, hr', hw'⟩
      · omega
      · obtain ⟨k, hk⟩ := List.mem_iff_getElem?.1 hr'
        by_cases e : k = l
        · subst e
          obtain rfl : rank = r := Option.some.inj (hr.symm.trans hk)
          omega
        · refine ⟨r, List.mem_of_getElem? (i := k) ?_, by omega⟩
          rw [List.getElem?_set_ne (Ne.symm e)]
          exact hk

theorem PathTo.extend {ps : Params} {p n w : Nat} (h : Needs N p n) (hw : PathTo N ps n w) : ∃ w', w ≤ w' ∧ PathTo N ps p w' := by
  induction h using Relation.ReflTransGen.head_induction_on with
  | refl => exact ⟨w, Nat.le_refl _, hw⟩
  | head h _ ih =>
    obtain ⟨f, hf, rfl⟩ := h
    obtain ⟨w', h1, h2⟩ := ih
    exact ⟨_, by omega, .step _ f w' hf h2⟩

theorem level_le_depth (H : N.WF) {ps : Params} {V : DepthView} (hV : depthView N ps = some V) {n l : Nat} (hl : V.level n = some l) :
    Used N n ∧ IsLevel N ps n l ∧ l ≤ V.depth := by
  obtain ⟨V', e, h1, h2, h3⟩ := C72_levels H ps
  obtain rfl : V' = V := Option.some.inj (e.symm.trans hV)
  by_cases hu : Used N n
  · obtain ⟨l', k1, k2⟩ := h2 n hu
    obtain rfl : l = l' := Option.some.inj (hl.symm.trans k1)
    refine ⟨hu, k2, ?_⟩
    obtain ⟨p, hp, hn⟩ := hu
    obtain ⟨w', g1, g2⟩ := PathTo.extend hn k2.1
    have := h1.2 p hp w' g2
    omega
  · rw [h3 n hu] at hl
    cases hl

theorem RankedOn.congr {Q : Nat → Prop} (h : RankedOn P V R) (e : ∀ n, P n ↔ Q n) : RankedOn Q V R :=
  ⟨h.len, fun n hn => h.place n ((e n).2 hn), fun l i n hn => (h.node l i n hn).imp (e n).1 id, h.bound, h.attained⟩

theorem initRanks_spec (H : N.WF) (hV : depthView N {} = some V) (w : Nat) :
    ((∃ n < N.size, N.isConst n = false ∧ ¬ Used N n) → initRanks N V ⟨List.replicate (V.depth + 1) [], fun _ => none, w⟩ = none) ∧
    ((∀ n < N.size, N.isConst n = false → Used N n) → w = 0 → ∃ R, initRanks N V ⟨List.replicate (V.depth + 1) [], fun _ => none, w⟩ = some R ∧ Ranked N V R) := by
  obtain ⟨V', e, -, h2, h3⟩ := C72_levels H {}
  obtain rfl : V' = V := Option.some.inj (e.symm.trans hV)
  unfold initRanks
  have stay : ∀ l : List Nat, l.foldl (fun acc n => acc.bind fun R => if N.isConst n then some R else (V'.level n).bind fun l => R.insert l n) (none : Option Ranks) = none := by
    intro l
    induction l with
    | nil => rfl
    | cons a l ih => rw [List.foldl_cons]; exact ih
  constructor
  · rintro ⟨n, hn, hc, hu⟩
    obtain ⟨l1, l2, hl⟩ := List.append_of_mem (List.mem_range.2 hn)
    rw [hl, List.foldl_append, List.foldl_cons]
    have hnone : ∀ acc : Option Ranks, acc.bind (fun R => if N.isConst n then some R else (V'.level n).bind fun l => R.insert l n) = none := by
      intro acc
      cases acc with
      | none => rfl
      | some R =>
        rw [Option.bind_some, hc, h3 n hu]
        rfl
    rw [hnone]
    exact stay l2
  · rintro hall rfl
    have key : ∀ k ≤ N.size, ∃ R, (List.range k).foldl (fun acc n => acc.bind fun R => if N.isConst n then some R else (V'.level n).bind fun l => R.insert l n)
        (some ⟨List.replicate (V'.depth + 1) [], fun _ => none, 0⟩) = some R ∧ RankedOn (fun n => n < k ∧ N.isConst n = false) V' R := by
      intro k
      induction k with
      | zero =>
        intro _
        refine ⟨_, rfl, ⟨by simp, fun n hn => absurd hn.1 (Nat.not_lt_zero _), ?_, ?_, Or.inl rfl⟩⟩
        · intro l i n hn
          obtain ⟨rank, h1, h2⟩ := at_some.1 hn
          have := List.mem_of_getElem? h1
          rw [List.eq_of_mem_replicate this] at h2
          cases h2
        · intro rank hr
          rw [List.eq_of_mem_replicate hr]
          exact Nat.le_refl _
      | succ k ih =>
        intro hk
        obtain ⟨R, e1, h1⟩ := ih (by omega)
        rw [List.range_succ, List.foldl_append, e1]
        simp only [List.foldl_cons, List.foldl_nil, Option.bind_some]
        cases hc : N.isConst k with
        | true =>
          refine ⟨R, rfl, h1.congr fun n => ⟨fun h => ⟨by omega, h.2⟩, fun h => ⟨?_, h.2⟩⟩⟩
          rcases Nat.lt_or_ge n k with hlt | hge
          · exact hlt
          · obtain rfl : n = k := by omega
            rw [hc] at h
            cases h.2
        | false =>
          obtain ⟨l, hl, -⟩ := h2 k (hall k (by omega) hc)
          obtain ⟨R', e2, h4⟩ := h1.insert hl (fun h => Nat.lt_irrefl _ h.1) (level_le_depth H hV hl).2.2
          refine ⟨R', ?_, h4.congr fun n => ⟨?_, ?_⟩⟩
          · rw [hl]
            exact e2
          · rintro (h | rfl)
            · exact ⟨by omega, h.2⟩
            · exact ⟨by omega, hc⟩
          · rintro ⟨h, h'⟩
            rcases Nat.lt_or_ge n k with hlt | hge
            · exact Or.inl ⟨hlt, h'⟩
            · exact Or.inr (by omega)
    exact key N.size (Nat.le_refl _)

/-- **C74** (construction) The view can be constructed exactly if an output depends on every node that is not constant. Then each of these nodes has its level and
one position, and nothing else is in the ranks. -/
theorem C74_construct (H : N.WF) : ((∃ n < N.size, N.isConst n = false ∧ ¬ Used N n) → rankView N = none) ∧
    ((∀ n < N.size, N.isConst n = false → Used N n) → ∃ V R, rankView N = some (V, R) ∧ depthView N {} = some V ∧ Ranked N V R) := by
  obtain ⟨V, hV, -⟩ := C72_levels H {}
  obtain ⟨h1, h2⟩ := initRanks_spec H hV 0
  unfold rankView
  rw [hV, Option.bind_some]
  constructor
  · intro h
    rw [h1 h]
    rfl
  · intro h
    obtain ⟨R, e, hR⟩ := h2 h rfl
    exact ⟨V, R, by rw [e]; rfl, rfl, hR⟩

/-! ## Changes -/

theorem ranked_set {l : Nat} {nodes : List Nat} {R' : Ranks} (h : RankedOn P V R) (e : R.set l nodes = some R') : RankedOn P V R' := by
  unfold Ranks.set at e
  cases hr : R.ranks[l]? with
  | none => rw [hr] at e; cases e
  | some rank =>
    rw [hr] at e
    simp only at e
    split at e
    · rename_i hp
      rw [List.isPerm_iff] at hp
      obtain rfl := Option.some.inj e
      obtain ⟨a1, a2⟩ := assign_spec R.pos ((hp.nodup_iff).1 (h.rank_nodup hr))
      exact h.replace hr hp a1 a2
    · cases e

theorem foldl_bind_none {α β : Type _} (f : β → α → Option β) (l : List α) : l.foldl (fun acc x => acc.bind fun R => f R x) none = none := by
  induction l with
  | nil => rfl
  | cons a l ih => rw [List.foldl_cons]; exact ih

theorem ranked_foldl {α : Type _} {f : Ranks → α → Option Ranks} (hf : ∀ R R' x, RankedOn P V R → f R x = some R' → RankedOn P V R') :
    ∀ (l : List α) (R R' : Ranks), RankedOn P V R → l.foldl (fun acc x => acc.bind fun R => f R x) (some R) = some R' → RankedOn P V R' := by
  intro l
  induction l with
  | nil =>
    intro R R' h e
    obtain rfl := Option.some.inj e
    exact h
  | cons a l ih =>
    intro R R' h e
    rw [List.foldl_cons, Option.bind_some] at e
    cases ha : f R a with
    | none => rw [ha, foldl_bind_none] at e; cases e
    | some R1 =>
      rw [ha] at e
      exact ih R1 R' (hf R R1 a h ha) e

theorem ranked_sort {l : Nat} {cmp : Nat → Nat → Bool} {R' : Ranks} (h : RankedOn P V R) (e : R.sort l cmp = some R') : RankedOn P V R' := by
  unfold Ranks.sort at e
  cases hr : R.ranks[l]? with
  | none => rw [hr] at e; cases e
  | some rank =>
    rw [hr] at e
    obtain rfl := Option.some.inj e
    have hp : rank.Perm (rank.mergeSort fun a b => !cmp b a) := (List.mergeSort_perm _ _).symm
    obtain ⟨a1, a2⟩ := assign_spec R.pos ((hp.nodup_iff).1 (h.rank_nodup hr))
    exact h.replace hr hp a1 a2

theorem ranked_swap {a b : Nat} {R' : Ranks} (h : RankedOn P V R) (ha : P a) (hb : P b) (e : R.swap V a b = some R') : RankedOn P V R' := by
  obtain ⟨l, i, a1, a2, a3⟩ := h.place a ha
  obtain ⟨l', j, b1, b2, b3⟩ := h.place b hb
  unfold Ranks.swap at e
  rw [a1, b1] at e
  simp only at e
  by_cases hl : l = l'
  · subst hl
    rw [if_pos rfl] at e
    obtain ⟨rank, hr, hi⟩ := at_some.1 a3
    obtain ⟨rank', hr', hj⟩ := at_some.1 b3
    obtain rfl : rank = rank' := Option.some.inj (hr.symm.trans hr')
    rw [hr, a2, b2] at e
    simp only [Option.getD_some, hi, hj] at e
    obtain rfl := Option.some.inj e
    have hil := (List.getElem?_eq_some_iff.1 hi).1
    have hjl := (List.getElem?_eq_some_iff.1 hj).1
    have hnd := h.rank_nodup hr
    have get : ∀ k, ((rank.set i b).set j a)[k]? = if k = j then some a else if k = i then some b else rank[k]? := by
      intro k
      by_cases e1 : k = j
      · subst e1
        rw [if_pos rfl, List.getElem?_set_self (by rw [List.length_set]; exact hjl)]
      · rw [if_neg e1, List.getElem?_set_ne (Ne.symm e1)]
        by_cases e2 : k = i
        · subst e2
          rw [if_pos rfl, List.getElem?_set_self hil]
        · rw [if_neg e2, List.getElem?_set_ne (Ne.symm e2)]
    have inj : ∀ (k n : Nat), rank[k]? = some n → (n = a ↔ k = i) ∧ (n = b ↔ k = j) := by
      intro k n hk
      have hkl := (List.getElem?_eq_some_iff.1 hk).1
      refine ⟨⟨fun e => ?_, fun e => ?_⟩, ⟨fun e => ?_, fun e => ?_⟩⟩
      · subst e
        exact (List.getElem?_inj hkl hnd).1 (hk.trans hi.symm)
      · subst e
        exact Option.some.inj (hk.symm.trans hi)
      · subst e
        exact (List.getElem?_inj hkl hnd).1 (hk.trans hj.symm)
      · subst e
        exact Option.some.inj (hk.symm.trans hj)
    have hij : a = b ↔ i = j := ((inj i a hi).2)
    have h1 : ∀ (k n : Nat), ((rank.set i b).set j a)[k]? = some n → (if n = b then some i else if n = a then some j else R.pos n) = some k := by
      intro k n hk
      rw [get] at hk
      by_cases e1 : k = j
      · rw [if_pos e1, Option.some.injEq] at hk
        subst hk
        by_cases e2 : a = b
        · rw [if_pos e2, e1, hij.1 e2]
        · rw [if_neg e2, if_pos rfl, e1]
      · rw [if_neg e1] at hk
        by_cases e2 : k = i
        · rw [if_pos e2, Option.some.injEq] at hk
          subst hk
          rw [if_pos rfl, e2]
        · rw [if_neg e2] at hk
          have := inj k n hk
          rw [if_neg (fun h => e1 (this.2.1 h)), if_neg (fun h => e2 (this.1.1 h))]
          exact (h.node l k n (at_some.2 ⟨rank, hr, hk⟩)).2.2
    have hnd' : ((rank.set i b).set j a).Nodup := by
      rw [List.nodup_iff_injective_getElem]
      intro x y hxy
      have hx := h1 x.1 _ (List.getElem?_eq_getElem x.2)
      have hy := h1 y.1 _ (List.getElem?_eq_getElem y.2)
      have e : ((rank.set i b).set j a)[x.1]'x.2 = ((rank.set i b).set j a)[y.1]'y.2 := hxy
      rw [e, hy] at hx
      exact Fin.ext (Option.some.inj hx).symm
    have hmem : ∀ n, n ∈ ((rank.set i b).set j a) ↔ n ∈ rank := by
      intro n
      constructor
      · intro hn
        obtain ⟨k, hk⟩ := List.mem_iff_getElem?.1 hn
        rw [get] at hk
        split at hk
        · rw [← Option.some.inj hk]; exact List.mem_of_getElem? hi
        · split at hk
          · rw [← Option.some.inj hk]; exact List.mem_of_getElem? hj
          · exact List.mem_of_getElem? hk
      · intro hn
        obtain ⟨k, hk⟩ := List.mem_iff_getElem?.1 hn
        by_cases e1 : k = j
        · have : n = b := (inj k n hk).2.2 e1
          by_cases e2 : i = j
          · refine List.mem_of_getElem? (i := j) ?_
            rw [get, if_pos rfl, this, hij.2 e2]
          · refine List.mem_of_getElem? (i := i) ?_
            rw [get, if_neg e2, if_pos rfl, this]
        · by_cases e2 : k = i
          · refine List.mem_of_getElem? (i := j) ?_
            rw [get, if_pos rfl, (inj k n hk).1.2 e2]
          · refine List.mem_of_getElem? (i := k) ?_
            rw [get, if_neg e1, if_neg e2, hk]
    refine h.replace hr ((List.perm_ext_iff_of_nodup hnd hnd').2 fun n => (hmem n).symm) h1 ?_
    intro m hm
    have hmr : m ∉ rank := fun h => hm ((hmem m).2 h)
    show (if m = b then some i else if m = a then some j else R.pos m) = R.pos m
    rw [if_neg (by rintro rfl; exact hmr (List.mem_of_getElem? hj)), if_neg (by rintro rfl; exact hmr (List.mem_of_getElem? hi))]
  · rw [if_neg hl] at e
    cases e

/-- Only nodes of the view are swapped. -/
def ROp.Valid (N : Net) : ROp → Prop
  | .swap a b => (a < N.size ∧ N.isConst a = false) ∧ b < N.size ∧ N.isConst b = false
  | _ => True

/-- **C74** (histories) Whatever methods are called, in any order, each node keeps its level and has one position in its rank, and the width is that of a widest
rank. -/
theorem C74_run (h : Ranked N V R) (ops : List ROp) (hv : ∀ op ∈ ops, op.Valid N) {R' : Ranks} (e : R.run N V ops = some R') : Ranked N V R' := by
  unfold Ranks.run at e
  induction ops generalizing R with
  | nil =>
    obtain rfl := Option.some.inj e
    exact h
  | cons op ops ih =>
    rw [List.foldl_cons, Option.bind_some] at e
    cases ha : R.step N V op with
    | none => rw [ha, foldl_bind_none] at e; cases e
    | some R1 =>
      rw [ha] at e
      refine ih ?_ (fun o ho => hv o (List.mem_cons_of_mem _ ho)) e
      have hop := hv op List.mem_cons_self
      cases op with
      | set l nodes => exact ranked_set h ha
      | setAll new =>
        have ha : R.setAll new = some R1 := ha
        unfold Ranks.setAll at ha
        split at ha
        · exact ranked_foldl (α := List Nat × Nat) (f := fun R x => R.set x.2 x.1) (fun R R' x h e => ranked_set h e) _ R R1 h ha
        · cases ha
      | swap a b => exact ranked_swap h hop.1 hop.2 ha
      | sort l cmp => exact ranked_sort h ha
      | rearrangePis => exact ranked_set h ha

/-- **C74** (setting) `set_ranks` succeeds exactly on rearrangements of a rank, and the rank then is as given. The others do not change. -/
theorem C74_set (l : Nat) (nodes : List Nat) : (∃ R', R.set l nodes = some R') ↔ ∃ rank, R.ranks[l]? = some rank ∧ rank.Perm nodes := by
  unfold Ranks.set
  cases hr : R.ranks[l]? with
  | none => simp
  | some rank =>
    simp only [Option.some.injEq, exists_eq_left']
    rw [← List.isPerm_iff]
    split <;> simp_all

theorem C74_set_result {l : Nat} {nodes : List Nat} {R' : Ranks} (e : R.set l nodes = some R') : R'.ranks[l]? = some nodes ∧ ∀ l' ≠ l, R'.ranks[l']? = R.ranks[l']? := by
  unfold Ranks.set at e
  cases hr : R.ranks[l]? with
  | none => rw [hr] at e; cases e
  | some rank =>
    rw [hr] at e
    simp only at e
    split at e
    · obtain rfl := Option.some.inj e
      exact ⟨List.getElem?_set_self (List.getElem?_eq_some_iff.1 hr).1, fun l' hl => List.getElem?_set_ne (Ne.symm hl)⟩
    · cases e

/-- **C74** (setting) After `set_all_ranks`, the ranks are as given. -/
theorem C74_setAll_result {new : List (List Nat)} {R' : Ranks} (e : R.setAll new = some R') : R'.ranks = new := by
  unfold Ranks.setAll at e
  split at e
  · rename_i hl
    have key : ∀ (suffix : List (List Nat)) (pre rest : List (List Nat)) (R : Ranks), R.ranks = pre ++ rest → rest.length = suffix.length →
        (suffix.zipIdx pre.length).foldl (fun acc x => acc.bind fun R => R.set x.2 x.1) (some R) = some R' → R'.ranks = pre ++ suffix := by
      intro suffix
      induction suffix with
      | nil =>
        intro pre rest R h1 h2 e
        rw [← Option.some.inj e, h1, List.length_eq_zero_iff.1 h2]
      | cons a suffix ih =>
        intro pre rest R h1 h2 e
        rw [List.zipIdx_cons, List.foldl_cons, Option.bind_some] at e
        cases hs : R.set pre.length a with
        | none => rw [hs, foldl_bind_none (fun R (x : List Nat × Nat) => Ranks.set R x.2 x.1)] at e; cases e
        | some R1 =>
          rw [hs] at e
          obtain ⟨r, rest, rfl⟩ : ∃ r rest', rest = r :: rest' := by
            cases rest with
            | nil => simp at h2
            | cons r rest => exact ⟨r, rest, rfl⟩
          have h3 : R1.ranks = R.ranks.set pre.length a := by
            unfold Ranks.set at hs
            split at hs
            · cases hs
            · split at hs
              · rw [← Option.some.inj hs]
              · cases hs
          have := ih (pre ++ [a]) rest R1 (by rw [h3, h1, List.set_append_right _ _ (Nat.le_refl _)]; simp) (by simpa using h2)
            (by rw [List.length_append, List.length_singleton]; exact e)
          rw [this]
          simp
    simpa using key new [] R.ranks R rfl hl.symm e
  · cases e

/-- **C74** (swapping) `swap` exchanges two nodes of a level and nothing else. -/
theorem C74_swap (h : Ranked N V R) {a b l i j : Nat} (ha : R.at l i = some a) (hb : R.at l j = some b) : ∃ R', R.swap V a b = some R' ∧
    ∀ l' k, R'.at l' k = if l' = l ∧ k = j then some a else if l' = l ∧ k = i then some b else R.at l' k := by
  obtain ⟨-, a1, a2⟩ := h.node l i a ha
  obtain ⟨-, b1, b2⟩ := h.node l j b hb
  obtain ⟨rank, hr, hi⟩ := at_some.1 ha
  obtain ⟨rank', hr', hj⟩ := at_some.1 hb
  obtain rfl : rank = rank' := Option.some.inj (hr.symm.trans hr')
  have hl := (List.getElem?_eq_some_iff.1 hr).1
  unfold Ranks.swap
  rw [a1, b1]
  simp only [if_true]
  rw [hr, a2, b2]
  simp only [Option.getD_some, hi, hj]
  refine ⟨_, rfl, fun l' k => ?_⟩
  unfold Ranks.at
  show ((R.ranks.set l _)[l']?).bind _ = _
  by_cases e : l' = l
  · subst e
    rw [List.getElem?_set_self hl, hr]
    simp only [Option.bind_some, true_and]
    by_cases e1 : k = j
    · subst e1
      rw [if_pos rfl, List.getElem?_set_self (by rw [List.length_set]; exact (List.getElem?_eq_some_iff.1 hj).1)]
    · rw [if_neg e1, List.getElem?_set_ne (Ne.symm e1)]
      by_cases e2 : k = i
      · subst e2
        rw [if_pos rfl, List.getElem?_set_self (List.getElem?_eq_some_iff.1 hi).1]
      · rw [if_neg e2, List.getElem?_set_ne (Ne.symm e2)]
  · rw [List.getElem?_set_ne (Ne.symm e), if_neg (fun h => e h.1), if_neg (fun h => e h.1)]

/-- **C74** (sorting) `sort_rank` sorts the rank. -/
theorem C74_sort {l : Nat} {rank : List Nat} (hr : R.ranks[l]? = some rank) (cmp : Nat → Nat → Bool)
    (htrans : ∀ a b c, cmp b a = false → cmp c b = false → cmp c a = false) (hasymm : ∀ a b, cmp a b = true → cmp b a = false) :
    ∃ R' rank', R.sort l cmp = some R' ∧ R'.ranks[l]? = some rank' ∧ rank'.Perm rank ∧ rank'.Pairwise (fun a b => cmp b a = false) := by
  unfold Ranks.sort
  rw [hr]
  refine ⟨_, rank.mergeSort fun a b => !cmp b a, rfl, List.getElem?_set_self (List.getElem?_eq_some_iff.1 hr).1, List.mergeSort_perm _ _, ?_⟩
  have := List.pairwise_mergeSort (le := fun a b => !cmp b a) ?_ ?_ rank
  · exact this.imp fun h => by simpa using h
  · intro a b c h1 h2
    simp only [Bool.not_eq_true'] at h1 h2 ⊢
    exact htrans a b c h1 h2
  · intro a b
    cases h : cmp b a
    · simp
    · rw [hasymm b a h]; simp

/-! ## Queries -/

/-- **C74** (validity) `check_validity` tells whether each node in the ranks has its level and its position. -/
theorem C74_check_iff : R.check V = true ↔ ∀ l i n, R.at l i = some n → V.level n = some l ∧ R.pos n = some i := by
  unfold Ranks.check
  rw [List.all_eq_true]
  constructor
  · intro h l i n hn
    obtain ⟨rank, h1, h2⟩ := at_some.1 hn
    have := List.all_eq_true.1 (h (rank, l) (List.mk_mem_zipIdx_iff_getElem?.2 h1)) (n, i) (List.mk_mem_zipIdx_iff_getElem?.2 h2)
    simpa using this
  · rintro h ⟨rank, l⟩ hx
    rw [List.all_eq_true]
    rintro ⟨n, i⟩ hy
    have := h l i n (at_some.2 ⟨rank, List.mk_mem_zipIdx_iff_getElem?.1 hx, List.mk_mem_zipIdx_iff_getElem?.1 hy⟩)
    simp [this.1, this.2]

/-- **C74** (validity) `check_validity` holds. -/
theorem C74_check (h : Ranked N V R) : R.check V = true :=
  C74_check_iff.2 fun l i n hn => (h.node l i n hn).2

theorem ranked_nodes (h : RankedOn P V R) : R.nodes.Nodup ∧ (∀ n, n ∈ R.nodes ↔ P n) ∧ R.nodes.Pairwise (fun a b => (V.level a).getD 0 ≤ (V.level b).getD 0) := by
  unfold Ranks.nodes
  have lv : ∀ (l : Nat) (hl : l < R.ranks.length), ∀ n ∈ R.ranks[l], V.level n = some l := fun l hl n hn =>
    ((h.mem_rank (List.getElem?_eq_getElem hl)).1 hn).2
  refine ⟨?_, fun n => ?_, ?_⟩
  · rw [List.nodup_flatten]
    refine ⟨fun rank hr => ?_, ?_⟩
    · obtain ⟨l, hl⟩ := List.mem_iff_getElem?.1 hr
      exact h.rank_nodup hl
    · rw [List.pairwise_iff_getElem]
      intro i j hi hj hij n h1 h2
      have e1 := lv i hi n h1
      have e2 := lv j hj n h2
      rw [e1, Option.some.injEq] at e2
      omega
  · rw [List.mem_flatten]
    constructor
    · rintro ⟨rank, hr, hn⟩
      obtain ⟨l, hl⟩ := List.mem_iff_getElem?.1 hr
      exact ((h.mem_rank hl).1 hn).1
    · intro hn
      obtain ⟨l, i, -, -, h3⟩ := h.place n hn
      obtain ⟨rank, hr, hi⟩ := at_some.1 h3
      exact ⟨rank, List.mem_of_getElem? hr, List.mem_of_getElem? hi⟩
  · rw [List.pairwise_flatten]
    refine ⟨fun rank hr => ?_, ?_⟩
    · obtain ⟨l, hl⟩ := List.mem_iff_getElem?.1 hr
      refine List.pairwise_of_forall_mem_list ?_
      intro a ha b hb
      rw [((h.mem_rank hl).1 ha).2, ((h.mem_rank hl).1 hb).2]
      exact Nat.le_refl _
    · rw [List.pairwise_iff_getElem]
      intro i j hi hj hij a ha b hb
      rw [lv i hi a ha, lv j hj b hb]
      exact Nat.le_of_lt hij

/-- **C74** (order) `foreach_node` visits each node other than constants once, by level, and after its fanins other than constants. -/
theorem C74_nodes (H : N.WF) (hV : depthView N {} = some V) (h : Ranked N V R) : R.nodes.Perm ((List.range N.size).filter fun n => !N.isConst n) ∧
    ∀ (j n : Nat), R.nodes[j]? = some n → ∀ f ∈ N.fanins n, N.isConst f.1 = false → ∃ i < j, R.nodes[i]? = some f.1 := by
  obtain ⟨h1, h2, h3⟩ := ranked_nodes h
  refine ⟨?_, ?_⟩
  · rw [List.perm_ext_iff_of_nodup h1 (List.nodup_range.filter _)]
    intro n
    rw [h2, List.mem_filter, List.mem_range]
    simp
  · intro j n hj f hf hfc
    obtain ⟨hn, -⟩ := (h2 n).1 (List.mem_of_getElem? hj)
    have hfl := H.fanins n hn f hf
    obtain ⟨i, hi⟩ := List.mem_iff_getElem?.1 ((h2 f.1).2 ⟨hfl, hfc⟩)
    refine ⟨i, ?_, hi⟩
    obtain ⟨l, -, k1, -⟩ := h.place n ((h2 n).1 (List.mem_of_getElem? hj))
    obtain ⟨l', -, k1', -⟩ := h.place f.1 ⟨hfl, hfc⟩
    have hlt : l' < l := by
      have a1 := (level_le_depth H hV k1).2.1
      have a2 := (level_le_depth H hV k1').2.1
      have := a1.2 _ (.step n f l' hf a2.1)
      have e : ({} : Params).cost n = 1 := rfl
      omega
    by_contra hc
    obtain ⟨x1, x2⟩ := List.getElem?_eq_some_iff.1 hi
    obtain ⟨y1, y2⟩ := List.getElem?_eq_some_iff.1 hj
    rcases Nat.lt_or_eq_of_le (Nat.le_of_not_lt hc) with hlt' | heq
    · have := List.pairwise_iff_getElem.1 h3 j i y1 x1 hlt'
      rw [x2, y2, k1, k1'] at this
      simp only [Option.getD_some] at this
      omega
    · subst heq
      rw [hi, Option.some.injEq] at hj
      rw [← hj, k1'] at k1
      rw [Option.some.injEq] at k1
      omega

/-- **C74** (gates) `foreach_gate` visits each gate once. -/
theorem C74_gates (h : Ranked N V R) : (R.gates N).Perm ((List.range N.size).filter N.isGate) := by
  obtain ⟨h1, h2, -⟩ := ranked_nodes h
  unfold Ranks.gates
  refine (List.perm_ext_iff_of_nodup (h1.filter _) (List.nodup_range.filter _)).2 fun n => ?_
  rw [List.mem_filter, h2 n, List.mem_filter, List.mem_range]
  simp only [Net.isGate, Bool.not_eq_true', Bool.and_eq_true]
  tauto

/-- **C74** (given ranks) Ranks given to the constructor are kept, without constants, if they contain the nodes of the network by level, each once. -/
theorem C74_given (hV : depthView N {} = some V) (H : N.WF) (given : List (List Nat)) (hd : (given.flatten.filter fun n => !N.isConst n).Nodup)
    (hl : ∀ l rank, given[l]? = some rank → ∀ n ∈ rank, N.isConst n = false → n < N.size ∧ V.level n = some l)
    (hall : ∀ n < N.size, N.isConst n = false → n ∈ given.flatten) : ∃ R, rankViewOf N given = some (V, R) ∧ Ranked N V R := by
  unfold rankViewOf
  rw [hV, Option.bind_some]
  have e1 : ∀ (g : List (List Nat)) (k : Nat), (((g.zipIdx k).flatMap fun x => x.1.map fun n => (n, x.2)).filter fun x => !N.isConst x.1).map Prod.fst =
      g.flatten.filter fun n => !N.isConst n := by
    intro g
    induction g with
    | nil => intro k; rfl
    | cons a g ih =>
      intro k
      rw [List.zipIdx_cons, List.flatMap_cons, List.flatten_cons, List.filter_append, List.filter_append, List.map_append, ih]
      congr 1
      rw [List.filter_map, List.map_map]
      simp [Function.comp_def]
  have e2 : ∀ (n l : Nat), (n, l) ∈ (given.zipIdx.flatMap fun x => x.1.map fun n => (n, x.2)) → N.isConst n = false → n < N.size ∧ V.level n = some l := by
    intro n l h hc
    obtain ⟨⟨rank, l'⟩, hx, hm⟩ := List.mem_flatMap.1 h
    obtain ⟨n', hn', e⟩ := List.mem_map.1 hm
    rw [Prod.mk.injEq] at e
    obtain ⟨rfl, rfl⟩ := e
    exact hl _ rank (List.mk_mem_zipIdx_iff_getElem?.1 hx) _ hn' hc
  have e3 : ∀ n, (∃ l, (n, l) ∈ (given.zipIdx.flatMap fun x => x.1.map fun n => (n, x.2))) ↔ n ∈ given.flatten := by
    intro n
    rw [List.mem_flatten]
    constructor
    · rintro ⟨l, h⟩
      obtain ⟨⟨rank, l'⟩, hx, hm⟩ := List.mem_flatMap.1 h
      obtain ⟨n', hn', e⟩ := List.mem_map.1 hm
      rw [Prod.mk.injEq] at e
      obtain ⟨rfl, rfl⟩ := e
      exact ⟨rank, List.mem_of_getElem? (List.mk_mem_zipIdx_iff_getElem?.1 hx), hn'⟩
    · rintro ⟨rank, hr, hn⟩
      obtain ⟨l, hl⟩ := List.mem_iff_getElem?.1 hr
      exact ⟨l, List.mem_flatMap.2 ⟨(rank, l), List.mk_mem_zipIdx_iff_getElem?.2 hl, List.mem_map_of_mem hn⟩⟩
  have key : ∀ (todo : List (Nat × Nat)) (P : Nat → Prop) (R : Ranks), RankedOn P V R → ((todo.filter fun x => !N.isConst x.1).map Prod.fst).Nodup →
      (∀ x ∈ todo, N.isConst x.1 = false → ¬ P x.1 ∧ V.level x.1 = some x.2) →
      ∃ R', todo.foldl (fun acc x => acc.bind fun R => if N.isConst x.1 then some R else R.insert x.2 x.1) (some R) = some R' ∧
        RankedOn (fun n => P n ∨ N.isConst n = false ∧ ∃ l, (n, l) ∈ todo) V R' := by
    intro todo
    induction todo with
    | nil =>
      intro P R h _ _
      exact ⟨R, rfl, h.congr fun n => by simp⟩
    | cons x todo ih =>
      intro P R h hnd hx
      rw [List.foldl_cons, Option.bind_some]
      cases hc : N.isConst x.1 with
      | true =>
        rw [List.filter_cons_of_neg (by simp [hc])] at hnd
        obtain ⟨R', k1, k2⟩ := ih P R h hnd fun y hy => hx y (List.mem_cons_of_mem _ hy)
        refine ⟨R', k1, k2.congr fun n => ?_⟩
        constructor
        · rintro (h | ⟨h, l, h'⟩)
          · exact Or.inl h
          · exact Or.inr ⟨h, l, List.mem_cons_of_mem _ h'⟩
        · rintro (h | ⟨h, l, h'⟩)
          · exact Or.inl h
          · rcases List.mem_cons.1 h' with e | h'
            · rw [← e] at hc
              rw [h] at hc
              cases hc
            · exact Or.inr ⟨h, l, h'⟩
      | false =>
        rw [List.filter_cons_of_pos (by simp [hc]), List.map_cons, List.nodup_cons] at hnd
        obtain ⟨hx1, hx2⟩ := hx x List.mem_cons_self hc
        obtain ⟨R1, g1, g2⟩ := h.insert hx2 hx1 (level_le_depth H hV hx2).2.2
        obtain ⟨R', k1, k2⟩ := ih _ R1 g2 hnd.2 fun y hy hcy => by
          obtain ⟨y1, y2⟩ := hx y (List.mem_cons_of_mem _ hy) hcy
          refine ⟨?_, y2⟩
          rintro (h | h)
          · exact y1 h
          · refine hnd.1 ?_
            rw [← h]
            exact List.mem_map_of_mem (List.mem_filter.2 ⟨hy, by simp [hcy]⟩)
        refine ⟨R', ?_, k2.congr fun n => ?_⟩
        · simp only [Bool.false_eq_true, if_false]
          rw [g1]
          exact k1
        · constructor
          · rintro ((h | rfl) | ⟨h, l, h'⟩)
            · exact Or.inl h
            · exact Or.inr ⟨hc, x.2, List.mem_cons_self⟩
            · exact Or.inr ⟨h, l, List.mem_cons_of_mem _ h'⟩
          · rintro (h | ⟨h, l, h'⟩)
            · exact Or.inl (Or.inl h)
            · rcases List.mem_cons.1 h' with e | h'
              · exact Or.inl (Or.inr (by rw [← e]))
              · exact Or.inr ⟨h, l, h'⟩
  have base : RankedOn (fun _ => False) V ⟨List.replicate (V.depth + 1) [], fun _ => none, 0⟩ := by
    refine ⟨by simp, fun n hn => hn.elim, ?_, ?_, Or.inl rfl⟩
    · intro l i n hn
      obtain ⟨rank, h1, h2⟩ := at_some.1 hn
      have := List.mem_of_getElem? h1
      rw [List.eq_of_mem_replicate this] at h2
      cases h2
    · intro rank hr
      rw [List.eq_of_mem_replicate hr]
      exact Nat.le_refl _
  obtain ⟨R, k1, k2⟩ := key (given.zipIdx.flatMap fun x => x.1.map fun n => (n, x.2)) (fun _ => False) ⟨List.replicate (V.depth + 1) [], fun _ => none, 0⟩
    base (by rw [e1]; exact hd) (fun x hx hc => ⟨id, (e2 x.1 x.2 hx hc).2⟩)
  · rw [k1]
    refine ⟨R, rfl, k2.congr fun n => ?_⟩
    rw [e3]
    constructor
    · rintro (h | ⟨h, h'⟩)
      · exact h.elim
      · obtain ⟨l, hm⟩ := (e3 n).2 h'
        exact ⟨(e2 n l hm h).1, h⟩
    · rintro ⟨h, h'⟩
      exact Or.inr ⟨h', hall n h h'⟩

/-- **C74** (inputs) `foreach_pi` visits the inputs in the order of rank 0, which contains nothing else. -/
theorem C74_pis (H : N.WF) (hV : depthView N {} = some V) (hci : ∀ n, N.isCi n = true → N.isConst n = false) (h : Ranked N V R) :
    R.ranks[0]? = some (R.pis N) := by
  have hl : 0 < R.ranks.length := by rw [h.len]; omega
  obtain ⟨rank, hr⟩ : ∃ rank, R.ranks[0]? = some rank := ⟨R.ranks[0]'hl, List.getElem?_eq_getElem _⟩
  have hmem : ∀ n, n ∈ rank ↔ n ∈ N.cis := by
    intro n
    rw [h.mem_rank hr]
    unfold Net.cis
    rw [List.mem_filter, List.mem_range]
    constructor
    · rintro ⟨⟨h1, h2⟩, h3⟩
      refine ⟨h1, ?_⟩
      have hl := (level_le_depth H hV h3).2.1.1
      cases hi : N.isCi n with
      | true => rfl
      | false =>
        exfalso
        have e : ({} : Params).cost n = 1 := rfl
        generalize hz : (0 : Nat) = z at hl
        cases hl with
        | source _ h0 =>
          simp only [sourceCost, h2, hi, Bool.false_eq_true, if_false] at hz
          omega
        | step _ f w _ _ => omega
    · rintro ⟨h1, h2⟩
      have hc := hci n h2
      refine ⟨⟨h1, hc⟩, ?_⟩
      obtain ⟨l, -, k1, -⟩ := h.place n ⟨h1, hc⟩
      have := ((level_le_depth H hV k1).2.1).unique (isLevel_source H (Or.inr h2))
      rw [k1, this]
      simp [sourceCost, hc, h2]
  have hperm : (R.pis N).Perm rank := by
    refine (List.mergeSort_perm _ _).trans ?_
    exact (List.perm_ext_iff_of_nodup (List.nodup_range.filter _) (h.rank_nodup hr)).2 fun n => (hmem n).symm
  have hpos : ∀ (i n : Nat), rank[i]? = some n → R.pos n = some i := fun i n hi => (h.node 0 i n (at_some.2 ⟨rank, hr, hi⟩)).2.2
  rw [hr]
  congr 1
  refine (List.Perm.eq_of_pairwise (le := fun a b => (R.pos a).getD 0 ≤ (R.pos b).getD 0) ?_ ?_ ?_ hperm).symm
  · intro a b ha hb h1 h2
    obtain ⟨i, hi⟩ := List.mem_iff_getElem?.1 (hperm.mem_iff.1 ha)
    obtain ⟨j, hj⟩ := List.mem_iff_getElem?.1 hb
    rw [hpos i a hi, hpos j b hj] at h1 h2
    simp only [Option.getD_some] at h1 h2
    obtain rfl : i = j := by omega
    exact Option.some.inj (hi.symm.trans hj)
  · have := List.pairwise_mergeSort (le := fun a b => decide ((R.pos a).getD 0 ≤ (R.pos b).getD 0)) ?_ ?_ N.cis
    · exact this.imp fun h => by simpa using h
    · intro a b c h1 h2
      simp only [decide_eq_true_eq] at h1 h2 ⊢
      omega
    · intro a b
      simp only [Bool.or_eq_true, decide_eq_true_eq]
      omega
  · rw [List.pairwise_iff_getElem]
    intro i j hi hj hij
    rw [hpos i _ (List.getElem?_eq_getElem hi), hpos j _ (List.getElem?_eq_getElem hj)]
    exact Nat.le_of_lt hij

/-- **C74** (inputs) `rearrange_pis` brings the inputs into the order of the network. -/
theorem C74_rearrange (H : N.WF) (hV : depthView N {} = some V) (hci : ∀ n, N.isCi n = true → N.isConst n = false) (h : Ranked N V R) :
    ∃ R', R.step N V .rearrangePis = some R' ∧ R'.pis N = N.cis ∧ ∀ l ≠ 0, R'.ranks[l]? = R.ranks[l]? := by
  have h0 := C74_pis H hV hci h
  have hp : (R.pis N).Perm N.cis := List.mergeSort_perm _ _
  obtain ⟨R', e⟩ := (C74_set 0 N.cis).2 ⟨_, h0, hp⟩
  have h1 : Ranked N V R' := ranked_set h e
  obtain ⟨h2, h3⟩ := C74_set_result e
  exact ⟨R', e, Option.some.inj ((C74_pis H hV hci h1).symm.trans h2), h3⟩

/-! ## Examples -/

/-- Inputs 2, 3 and 4, gates 5 to 7. -/
def rankNet : Net where
  size := 8
  isConst := fun n => decide (n ≤ 1)
  isCi := fun n => decide (2 ≤ n ∧ n ≤ 4)
  fanins := fun n => if n = 5 then [(2, false), (3, false)] else if n = 6 then [(3, false), (4, false)] else if n = 7 then [(5, false), (6, false)] else []
  pos := [(7, false)]

theorem rankNet_wf : rankNet.WF := by
  refine ⟨?_, by decide, by decide, fun n => n, fun n h => h, by decide⟩
  intro n h
  have h : n ≤ 4 := by
    simp only [rankNet, decide_eq_true_eq] at h
    omega
  simp only [rankNet]
  rw [if_neg (by omega), if_neg (by omega), if_neg (by omega)]

/-- It meets the hypotheses of the theorems. -/
example : ∀ n < rankNet.size, rankNet.isConst n = false → Used rankNet n := by
  have h7 : Used rankNet 7 := ⟨(7, false), List.mem_cons_self, .refl⟩
  have step : ∀ n f, Used rankNet n → f ∈ rankNet.fanins n → Used rankNet f.1 := fun n f ⟨p, hp, h⟩ hf => ⟨p, hp, h.tail ⟨f, hf, rfl⟩⟩
  have h5 : Used rankNet 5 := step 7 (5, false) h7 (by decide)
  have h6 : Used rankNet 6 := step 7 (6, false) h7 (by decide)
  have h2 : Used rankNet 2 := step 5 (2, false) h5 (by decide)
  have h3 : Used rankNet 3 := step 5 (3, false) h5 (by decide)
  have h4 : Used rankNet 4 := step 6 (4, false) h6 (by decide)
  intro n hn hc
  simp only [rankNet, decide_eq_false_iff_not] at hn hc
  have : n = 2 ∨ n = 3 ∨ n = 4 ∨ n = 5 ∨ n = 6 ∨ n = 7 := by omega
  rcases this with rfl | rfl | rfl | rfl | rfl | rfl <;> assumption

/-- Ranks, positions and width of the example, and after a history. -/
example : (rankView rankNet).map (fun x => (x.2.ranks, x.2.width, x.2.pos 4)) = some ([[2, 3, 4], [5, 6], [7]], 3, some 2) := by decide +kernel

example : (rankView rankNet).bind (fun x => (x.2.run rankNet x.1 [.swap 2 4, .set 1 [6, 5], .setAll [[3, 4, 2], [6, 5], [7]], .swap 4 3]).map fun R => (R.ranks, R.pos 2, R.pos 6)) =
    some ([[4, 3, 2], [6, 5], [7]], some 2, some 0) := by decide +kernel

/-- **C74** is false of networks with an input that is not used: the constructor ends the program. -/
theorem C74_false_unused : ∃ N : Net, N.WF ∧ rankView N = none := by
  let N : Net := ⟨4, fun n => decide (n ≤ 1), fun n => decide (n = 2 ∨ n = 3), fun _ => [], [(2, false)]⟩
  refine ⟨N, ⟨fun _ _ => rfl, by simp [N], by decide, fun n => n, fun n h => h, by simp [N]⟩, ?_⟩
  have : (rankView N).isNone = true := by decide +kernel
  simpa using this

/-- **C74** is false of loops that are asked to stop: `foreach_node` goes on with the next rank, so it visits more than the nodes up to the first that asks. -/
theorem C74_false_stop : ∃ (V : DepthView) (R : Ranks) (cont : Nat → Bool), rankView rankNet = some (V, R) ∧ visitUntil cont R.nodes = [2] ∧ R.visited cont = [2, 5, 7] := by
  have k : (rankView rankNet).map (fun x => (visitUntil (fun _ => false) x.2.nodes, x.2.visited fun _ => false)) = some ([2], [2, 5, 7]) := by decide +kernel
  obtain ⟨⟨V, R⟩, hR, e⟩ := Option.map_eq_some_iff.1 k
  rw [Prod.mk.injEq] at e
  exact ⟨V, R, _, hR, e.1, e.2⟩

/-- Ranks in another order are kept. -/
example : (rankViewOf rankNet [[4, 0, 2, 3], [6, 5], [7]]).map (fun x => (x.2.ranks, x.2.width)) = some ([[4, 2, 3], [6, 5], [7]], 3) := by decide +kernel

/-- **C74** is false of given ranks that are not those of the network: the constructor takes any, also with a node at a wrong level, twice or not at all. -/
theorem C74_false_given : ∃ (V : DepthView) (R : Ranks), rankViewOf rankNet [[4, 7, 3], [6, 6], [5]] = some (V, R) ∧ R.check V = false ∧ 2 ∉ R.nodes := by
  have k : (rankViewOf rankNet [[4, 7, 3], [6, 6], [5]]).map (fun x => (x.2.check x.1, decide (2 ∉ x.2.nodes))) = some (false, true) := by decide +kernel
  obtain ⟨⟨V, R⟩, hR, e⟩ := Option.map_eq_some_iff.1 k
  rw [Prod.mk.injEq] at e
  exact ⟨V, R, hR, e.1, of_decide_eq_true e.2⟩

/-- **C74** is false of the width after an update: it is never reduced. Here the network has lost the gate that reads three inputs. -/
theorem C74_false_width : ∃ (N N' : Net) (V V' : DepthView) (R R' : Ranks), N.WF ∧ N'.WF ∧ rankView N = some (V, R) ∧ R.update N' = some (V', R') ∧
    R'.ranks = [[2], [3]] ∧ R'.width = 3 := by
  let N' : Net := ⟨4, fun n => decide (n ≤ 1), fun n => decide (n = 2), fun n => if n = 3 then [(2, false)] else [], [(3, false)]⟩
  have k1 : (rankView rankNet).map (fun x => x.2.width) = some 3 := by decide +kernel
  obtain ⟨⟨V, R⟩, hR, e⟩ := Option.map_eq_some_iff.1 k1
  have k2 : (Ranks.update N' ⟨[], fun _ => none, 3⟩).map (fun x => (x.2.ranks, x.2.width)) = some ([[2], [3]], 3) := by decide +kernel
  obtain ⟨⟨V', R'⟩, hR', e'⟩ := Option.map_eq_some_iff.1 k2
  rw [Prod.mk.injEq] at e'
  refine ⟨rankNet, N', V, V', R, R', rankNet_wf, ⟨?_, by decide, by decide, fun n => n, fun n h => h, by decide⟩, hR, ?_, e'.1, e'.2⟩
  · intro n h
    simp only [N', decide_eq_true_eq] at h
    show (if n = 3 then _ else _) = _
    rw [if_neg (by omega)]
  · have e : R.width = 3 := e
    unfold Ranks.update at hR' ⊢
    rw [e]
    exact hR'

end Verif.Views
