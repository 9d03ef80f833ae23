import Verif.Networks.Mincross
import Verif.Networks.RankProps

/-!
# Facts on the minimization of crossings: what the steps keep
-/
namespace Verif.Mincross

open Verif.Views

theorem foldlM_inv {σ α : Type} {I : σ → Prop} {f : σ → α → Option σ} : ∀ (l : List α) (s : σ),
    (∀ x ∈ l, ∀ s, I s → ∃ s', f s x = some s' ∧ I s') → I s → ∃ s', l.foldlM f s = some s' ∧ I s'
  | [], s, _, h => ⟨s, rfl, h⟩
  | x :: l, s, hf, h => by
    obtain ⟨s1, e1, h1⟩ := hf x (by simp) s h
    obtain ⟨s2, e2, h2⟩ := foldlM_inv l s1 (fun y hy => hf y (by simp [hy])) h1
    exact ⟨s2, by rw [List.foldlM_cons, e1]; exact e2, h2⟩

variable {N : Net} {V : DepthView}

/-- The position of a node; 0 if it has none. -/
def posOf (R : Ranks) (n : Nat) : Nat := (R.pos n).getD 0

/-- A node other than constants. -/
def IsNode (N : Net) (n : Nat) : Prop := n < N.size ∧ N.isConst n = false

theorem ranked_pos {R : Ranks} (h : Ranked N V R) {n : Nat} (hn : IsNode N n) : R.pos n = some (posOf R n) := by
  obtain ⟨l, i, -, e, -⟩ := h.place n hn
  unfold posOf; rw [e]; rfl

theorem positions_some {R : Ranks} (h : Ranked N V R) : ∀ (ns : List Nat), (∀ m ∈ ns, IsNode N m) →
    positions R ns = some (ns.map (posOf R))
  | [], _ => rfl
  | n :: ns, hn => by
    have ih := positions_some h ns (fun m hm => hn m (by simp [hm]))
    unfold positions at *
    rw [List.mapM_cons, ranked_pos h (hn n (by simp)), ih]
    rfl

theorem mem_fanouts {n c : Nat} : c ∈ fanouts N n ↔ c < N.size ∧ N.isConst c = false ∧ N.isCi c = false ∧ ∃ b, (n, b) ∈ N.fanins c := by
  simp only [fanouts, Net.isGate, List.mem_filter, List.mem_range, Bool.and_eq_true, Bool.not_eq_true', decide_eq_true_eq,
    List.mem_map, Prod.exists, exists_and_right, exists_eq_right, and_assoc]

theorem fanouts_node {n c : Nat} (h : c ∈ fanouts N n) : IsNode N c := by
  rw [mem_fanouts] at h; exact ⟨h.1, h.2.1⟩

theorem sources_node (H : N.WF) {n s : Nat} (hn : n < N.size) (h : s ∈ sources N n) : IsNode N s := by
  unfold sources at h
  rw [List.mem_filter, List.mem_map] at h
  obtain ⟨⟨f, hf, rfl⟩, hc⟩ := h
  exact ⟨H.fanins n hn f hf, by simpa using hc⟩

/-! ## One rank changes -/

/-- The ranks are valid, and only rank `r` may differ. -/
def Only (N : Net) (V : DepthView) (r : Nat) (R R' : Ranks) : Prop :=
  Ranked N V R' ∧ ∀ l, l ≠ r → R'.ranks[l]? = R.ranks[l]?

theorem reorder_only (sort : SortFn) (hs : ∀ cmp l, (sort cmp l).Perm l) {R : Ranks} (h : Ranked N V R) (order : Order)
    {r : Nat} (other : Nat) (hr : r ≤ V.depth) : ∃ R', reorder sort N V order r other R = some R' ∧ Only N V r R R' := by
  have hlt : r < R.ranks.length := by rw [h.len]; omega
  unfold reorder
  rw [List.getElem?_eq_getElem hlt, Option.bind_some]
  obtain ⟨R', e⟩ := (C74_set (R := R) r (sort (before order (medians N V R r other)) R.ranks[r])).2
    ⟨_, List.getElem?_eq_getElem hlt, (hs _ _).symm⟩
  exact ⟨R', e, ranked_set h e, (C74_set_result e).2⟩

theorem at_posOf {R : Ranks} (h : Ranked N V R) {n l : Nat} (hn : IsNode N n) (hl : V.level n = some l) :
    R.at l (posOf R n) = some n := by
  obtain ⟨l', i, h1, h2, h3⟩ := h.place n hn
  obtain rfl : l = l' := Option.some.inj (hl.symm.trans h1)
  unfold posOf; rw [h2]; exact h3

theorem swap_only {R : Ranks} (h : Ranked N V R) {r v w : Nat} (hv : IsNode N v) (hw : IsNode N w) (lv : V.level v = some r)
    (lw : V.level w = some r) : ∃ R', R.swap V v w = some R' ∧ Only N V r R R' ∧
      (v ≠ w → posOf R' v = posOf R w ∧ posOf R' w = posOf R v ∧ ∀ m, IsNode N m → m ≠ v → m ≠ w → posOf R' m = posOf R m) := by
  have av := at_posOf h hv lv
  have aw := at_posOf h hw lw
  obtain ⟨R', e, hR'⟩ := C74_swap h av aw
  have h' : Ranked N V R' := ranked_swap h hv hw e
  refine ⟨R', e, ⟨h', fun l hl => ?_⟩, fun hne => ?_⟩
  · -- rank by rank
    have hat : ∀ k, R'.at l k = R.at l k := fun k => by
      rw [hR', if_neg (fun c => hl c.1), if_neg (fun c => hl c.1)]
    unfold Ranks.at at hat
    have hlen : R'.ranks.length = R.ranks.length := by rw [h'.len, h.len]
    cases h1 : R.ranks[l]? with
    | none =>
      rw [List.getElem?_eq_none_iff] at h1 ⊢
      omega
    | some a =>
      have : l < R'.ranks.length := by rw [hlen]; exact (List.getElem?_eq_some_iff.1 h1).1
      rw [List.getElem?_eq_getElem this] at hat ⊢
      rw [h1] at hat
      simp only [Option.bind_some] at hat
      rw [List.ext_getElem? hat]
  · have key : ∀ m k l, R'.at l k = some m → posOf R' m = k := by
      intro m k l e
      unfold posOf; rw [(h'.node l k m e).2.2]; rfl
    have hpv : posOf R v ≠ posOf R w := by
      intro e
      rw [e, aw] at av
      exact hne (Option.some.inj av).symm
    refine ⟨key v _ r (by rw [hR', if_pos ⟨rfl, rfl⟩]), key w _ r (by rw [hR', if_neg (fun c => hpv c.2), if_pos ⟨rfl, rfl⟩]),
      fun m hm hmv hmw => ?_⟩
    obtain ⟨l, i, h1, h2, h3⟩ := h.place m hm
    have hpm : posOf R m = i := by unfold posOf; rw [h2]; rfl
    rw [hpm]
    refine key m i l ?_
    rw [hR', if_neg, if_neg, h3]
    · rintro ⟨rfl, rfl⟩; rw [av] at h3; exact hmv (Option.some.inj h3).symm
    · rintro ⟨rfl, rfl⟩; rw [aw] at h3; exact hmw (Option.some.inj h3).symm

theorem Only.trans {r : Nat} {R R' R'' : Ranks} (h : Only N V r R R') (h' : Only N V r R' R'') : Only N V r R R'' :=
  ⟨h'.1, fun l hl => (h'.2 l hl).trans (h.2 l hl)⟩

theorem transposePair_only (H : N.WF) {R : Ranks} (h : Ranked N V R) (order : Order) {r k v w : Nat} (hne : v ≠ w) (hv : IsNode N v)
    (hw : IsNode N w) (lv : V.level v = some r) (lw : V.level w = some r) (hlt : posOf R v < posOf R w) :
    ∃ R' k', transposePair N V order r (R, k) v w = some (R', k') ∧ Only N V r R R' ∧
      (posOf R' w = posOf R w ∨ posOf R' w = posOf R v) ∧ ∀ m, IsNode N m → m ≠ v → m ≠ w → posOf R' m = posOf R m := by
  unfold transposePair
  dsimp only
  rw [ranked_pos h hv, ranked_pos h hw]
  simp only [Option.bind_some]
  rw [if_pos hlt]
  have hin : ∀ a b, IsNode N a → IsNode N b → ∃ c, (if r > 0 then inCross N R a b else some 0) = some c := by
    intro a b ha hb
    by_cases hr : r > 0
    · rw [if_pos hr]
      unfold inCross
      rw [positions_some h _ (fun m hm => sources_node H ha.1 hm), positions_some h _ (fun m hm => sources_node H hb.1 hm)]
      exact ⟨_, rfl⟩
    · rw [if_neg hr]; exact ⟨_, rfl⟩
  have hout : ∀ a b, ∃ c, (if r + 1 < V.depth then outCross N R a b else some 0) = some c := by
    intro a b
    by_cases hr : r + 1 < V.depth
    · rw [if_pos hr]
      unfold outCross
      rw [positions_some h _ (fun m hm => fanouts_node hm), positions_some h _ (fun m hm => fanouts_node hm)]
      exact ⟨_, rfl⟩
    · rw [if_neg hr]; exact ⟨_, rfl⟩
  obtain ⟨i0, e0⟩ := hin v w hv hw
  obtain ⟨i1, e1⟩ := hin w v hw hv
  obtain ⟨o0, f0⟩ := hout v w
  obtain ⟨o1, f1⟩ := hout w v
  rw [e0, e1, f0, f1]
  simp only [Option.bind_some]
  split
  · obtain ⟨R', e, ho, hp⟩ := swap_only h hv hw lv lw
    obtain ⟨-, p2, p3⟩ := hp hne
    exact ⟨R', _, by rw [e]; rfl, ho, Or.inr p2, p3⟩
  · exact ⟨R, k, rfl, ⟨h, fun _ _ => rfl⟩, Or.inl rfl, fun _ _ _ _ => rfl⟩

theorem transposeFold (H : N.WF) (order : Order) (r : Nat) : ∀ (l : List Nat) (a j k : Nat) (R : Ranks), Ranked N V R → (a :: l).Nodup →
    (∀ m ∈ a :: l, IsNode N m ∧ V.level m = some r) → posOf R a ≤ j → (∀ i m, l[i]? = some m → posOf R m = j + 1 + i) →
    ∃ R' k', ((a :: l).zip l).foldlM (fun s p => transposePair N V order r s p.1 p.2) (R, k) = some (R', k') ∧ Only N V r R R'
  | [], a, j, k, R, h, _, _, _, _ => ⟨R, k, rfl, h, fun _ _ => rfl⟩
  | b :: l, a, j, k, R, h, hn, hm, ha, hl => by
    have hb : posOf R b = j + 1 := by have := hl 0 b rfl; omega
    have ma := hm a (by simp)
    have mb := hm b (by simp)
    have hne : a ≠ b := by rintro rfl; simp at hn
    obtain ⟨R1, k1, e1, o1, p1, q1⟩ := transposePair_only H h order (k := k) hne ma.1 mb.1 ma.2 mb.2 (by omega)
    have hn' := hn
    rw [List.nodup_cons] at hn'
    obtain ⟨R2, k2, e2, o2⟩ := transposeFold H order r l b (j + 1) k1 R1 o1.1 hn'.2 (fun m hm' => hm m (by simp at hm' ⊢; tauto))
      (by omega) (fun i m hi => by
        have hmem := List.mem_of_getElem? hi
        rw [q1 m (hm m (by simp [hmem])).1 (by rintro rfl; exact hn'.1 (by simp [hmem]))
          (by rintro rfl; rw [List.nodup_cons] at hn'; exact hn'.2.1 hmem)]
        have := hl (i + 1) m (by simpa using hi)
        omega)
    refine ⟨R2, k2, ?_, o1.trans o2⟩
    rw [List.zip_cons_cons, List.foldlM_cons, e1]
    exact e2

/-- The assertion on the positions in `transpose_step` never fails, although the pairs are taken from an outdated copy. -/
theorem transposeStep_only (H : N.WF) {R : Ranks} (h : Ranked N V R) (order : Order) {r : Nat} (hr : r ≤ V.depth) :
    ∃ R' k, transposeStep N V order r R = some (R', k) ∧ Only N V r R R' := by
  have hlt : r < R.ranks.length := by rw [h.len]; omega
  have he : R.ranks[r]? = some R.ranks[r] := List.getElem?_eq_getElem hlt
  unfold transposeStep
  rw [he, Option.bind_some]
  have hnd := h.rank_nodup he
  have hmem : ∀ m ∈ R.ranks[r], IsNode N m ∧ V.level m = some r := fun m hm => (h.mem_rank he).1 hm
  have hpos : ∀ i m, (R.ranks[r])[i]? = some m → posOf R m = i := by
    intro i m hi
    unfold posOf; rw [(h.node r i m (at_some.2 ⟨_, he, hi⟩)).2.2]; rfl
  generalize R.ranks[r] = rank at *
  cases rank with
  | nil => exact ⟨R, 0, rfl, h, fun _ _ => rfl⟩
  | cons a l =>
    refine transposeFold H order r l a 0 0 R h hnd hmem ?_ ?_
    · rw [hpos 0 a rfl]; exact Nat.le_refl 0
    · intro i m hi
      rw [hpos (i + 1) m (by simpa using hi)]; omega

/-! ## All ranks -/

/-- Valid ranks, with the inputs in their original order if they are fixed. -/
def Keeps (ps : CrossParams) (N : Net) (V : DepthView) (R0 R : Ranks) : Prop :=
  Ranked N V R ∧ (ps.fixedPis = true → R.ranks[0]? = R0.ranks[0]?)

theorem Only.keeps {ps : CrossParams} {R0 R R' : Ranks} {r : Nat} (h : Keeps ps N V R0 R) (o : Only N V r R R')
    (hr : ¬ (r = 0 ∧ ps.fixedPis = true)) : Keeps ps N V R0 R' := by
  refine ⟨o.1, fun hf => ?_⟩
  rw [o.2 0 (fun e => hr ⟨e.symm, hf⟩)]
  exact h.2 hf

theorem transposeLoop_keeps (H : N.WF) (ps : CrossParams) (order : Order) {R0 : Ranks} : ∀ (k : Nat) (R : Ranks) (cand : List Bool),
    Keeps ps N V R0 R → ∃ R', transposeLoop ps N V order k R cand = some R' ∧ Keeps ps N V R0 R'
  | 0, R, cand, h => ⟨R, rfl, h⟩
  | k + 1, R, cand, h => by
    obtain ⟨s, e, hs⟩ := foldlM_inv (I := fun s : Ranks × List Bool × Nat => Keeps ps N V R0 s.1) (f := transposeLevel ps N V order)
      (List.range (V.depth + 1)) (R, cand, 0) (fun l hl s hs => by
        unfold transposeLevel
        by_cases h0 : l = 0 ∧ ps.fixedPis = true
        · rw [if_pos h0]; exact ⟨s, rfl, hs⟩
        · rw [if_neg h0]
          split
          · obtain ⟨R', k', e', o'⟩ := transposeStep_only H hs.1 order (r := l) (by rw [List.mem_range] at hl; omega)
            rw [e']
            exact ⟨_, rfl, o'.keeps hs h0⟩
          · exact ⟨s, rfl, hs⟩) h
    rw [transposeLoop, e, Option.bind_some]
    split
    · exact ⟨_, rfl, hs⟩
    · exact transposeLoop_keeps H ps order k s.1 s.2.1 hs

theorem transpose_keeps (H : N.WF) (ps : CrossParams) (order : Order) {R0 R : Ranks} (h : Keeps ps N V R0 R) :
    ∃ R', transpose ps N V order R = some R' ∧ Keeps ps N V R0 R' := transposeLoop_keeps H ps order 1000 R _ h

theorem mincrossStep_keeps (H : N.WF) (sort : SortFn) (hs : ∀ cmp l, (sort cmp l).Perm l) (ps : CrossParams) (pass : Nat)
    {R0 R : Ranks} (h : Keeps ps N V R0 R) : ∃ R', mincrossStep sort ps N V pass R = some R' ∧ Keeps ps N V R0 R' := by
  unfold mincrossStep
  dsimp only
  have hmid : ∀ order, ∃ R1, (if pass % 2 = 0 then (List.range' 1 V.depth).foldlM (fun R r => reorder sort N V order r (r - 1) R) R
      else (List.range V.depth).reverse.foldlM
        (fun R r => if r = 0 ∧ ps.fixedPis = true then some R else reorder sort N V order r (r + 1) R) R) = some R1 ∧
      Keeps ps N V R0 R1 := by
    intro order
    split
    · refine foldlM_inv (I := Keeps ps N V R0) _ R (fun r hr R1 h1 => ?_) h
      rw [List.mem_range'_1] at hr
      obtain ⟨R2, e2, o2⟩ := reorder_only sort hs h1.1 order (r := r) (r - 1) (by omega)
      exact ⟨R2, e2, o2.keeps h1 (by omega)⟩
    · refine foldlM_inv (I := Keeps ps N V R0) _ R (fun r hr R1 h1 => ?_) h
      rw [List.mem_reverse, List.mem_range] at hr
      by_cases h0 : r = 0 ∧ ps.fixedPis = true
      · rw [if_pos h0]; exact ⟨R1, rfl, h1⟩
      · rw [if_neg h0]
        obtain ⟨R2, e2, o2⟩ := reorder_only sort hs h1.1 order (r := r) (r + 1) (by omega)
        exact ⟨R2, e2, o2.keeps h1 h0⟩
  obtain ⟨R1, e1, h1⟩ := hmid (if pass % 4 < 2 then Order.ascending else Order.descending)
  rw [e1, Option.bind_some]
  exact transpose_keeps H ps _ h1

/-! ## Setting all ranks -/

theorem ranked_perm {R R' : Ranks} (h : Ranked N V R) (h' : Ranked N V R') {l : Nat} {a b : List Nat} (ha : R.ranks[l]? = some a)
    (hb : R'.ranks[l]? = some b) : a.Perm b :=
  (List.perm_ext_iff_of_nodup (h.rank_nodup ha) (h'.rank_nodup hb)).2 (fun m => (h.mem_rank ha).trans (h'.mem_rank hb).symm)

theorem setAll_aux : ∀ (new : List (List Nat)) (k : Nat) (R : Ranks), (∀ i a, new[i]? = some a → ∃ b, R.ranks[k + i]? = some b ∧ b.Perm a) →
    ∃ R', (new.zipIdx k).foldl (fun acc x => acc.bind fun R => R.set x.2 x.1) (some R) = some R'
  | [], _, R, _ => ⟨R, rfl⟩
  | a :: new, k, R, h => by
    rw [List.zipIdx_cons, List.foldl_cons, Option.bind_some]
    obtain ⟨b, hb, hp⟩ := h 0 a rfl
    obtain ⟨R1, e1⟩ := (C74_set (R := R) k a).2 ⟨b, by simpa using hb, hp⟩
    rw [e1]
    refine setAll_aux new (k + 1) R1 (fun i c hc => ?_)
    obtain ⟨d, hd, hp'⟩ := h (i + 1) c (by simpa using hc)
    refine ⟨d, ?_, hp'⟩
    rw [(C74_set_result e1).2 _ (by omega)]
    rw [show k + 1 + i = k + (i + 1) by omega]
    exact hd

theorem setAll_ok {R R' : Ranks} (h : Ranked N V R) (h' : Ranked N V R') :
    ∃ R2, R.setAll R'.ranks = some R2 ∧ Ranked N V R2 ∧ R2.ranks = R'.ranks := by
  have hlen : R'.ranks.length = R.ranks.length := by rw [h.len, h'.len]
  obtain ⟨R2, e⟩ : ∃ R2, R.setAll R'.ranks = some R2 := by
    unfold Ranks.setAll
    rw [if_pos hlen]
    refine setAll_aux _ 0 R (fun i a ha => ?_)
    have hi : i < R.ranks.length := by rw [← hlen]; exact (List.getElem?_eq_some_iff.1 ha).1
    rw [Nat.zero_add]
    exact ⟨_, List.getElem?_eq_getElem hi, ranked_perm h h' (List.getElem?_eq_getElem hi) ha⟩
  refine ⟨R2, e, ?_, C74_setAll_result e⟩
  unfold Ranks.setAll at e
  rw [if_pos hlen] at e
  exact ranked_foldl (α := List Nat × Nat) (f := fun R x => R.set x.2 x.1) (fun R R' x h e => ranked_set h e) _ R R2 h e

end Verif.Mincross
