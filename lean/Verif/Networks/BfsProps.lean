import Verif.Networks.DepthProps
import Mathlib.Data.List.Dedup
import Mathlib.Data.List.Nodup
import Mathlib.Data.List.Perm.Subperm

/-!
# Properties of the breadth-first topological order
-/
namespace Verif.Views

/-- The constants are two nodes or one, and the only constants; constants are no inputs. -/
structure Consts (N : Net) (c0 c1 : Nat) : Prop where
  lt : c0 < N.size ∧ c1 < N.size
  iff : ∀ n < N.size, N.isConst n = true ↔ n = c0 ∨ n = c1
  ci : ∀ n, N.isCi n = true → N.isConst n = false

/-- The gate reads something, and nothing twice. -/
def Plain (N : Net) (n : Nat) : Prop := N.fanins n ≠ [] ∧ ((N.fanins n).map Prod.fst).Nodup

/-- Every gate a node depends on is plain. -/
def PlainCone (N : Net) (n : Nat) : Prop := ∀ m, Needs N n m → N.isGate m = true → Plain N m

variable {N : Net}

/-- How many of the nodes that a node reads are in `D`. -/
def doneCount (N : Net) (D : List Nat) (c : Nat) : Nat := (((N.fanins c).map Prod.fst).dedup).countP (· ∈ D)

theorem countP_append_one (l D : List Nat) (n : Nat) (hl : l.Nodup) (hn : n ∉ D) :
    l.countP (· ∈ D ++ [n]) = l.countP (· ∈ D) + if n ∈ l then 1 else 0 := by
  induction l with
  | nil => simp
  | cons a l ih =>
    rw [List.nodup_cons] at hl
    rw [List.countP_cons, List.countP_cons, ih hl.2]
    by_cases ha : a = n
    · subst ha
      simp [hn, hl.1]
    · have : ¬ n = a := fun h => ha h.symm
      simp [ha, this]
      by_cases a ∈ D <;> by_cases n ∈ l <;> simp_all <;> omega

theorem doneCount_append {D : List Nat} {n : Nat} (hn : n ∉ D) (c : Nat) :
    doneCount N (D ++ [n]) c = doneCount N D c + if n ∈ (N.fanins c).map Prod.fst then 1 else 0 := by
  unfold doneCount
  rw [countP_append_one _ _ _ (List.nodup_dedup _) hn]
  simp only [List.mem_dedup]

theorem doneCount_le (D : List Nat) (c : Nat) : doneCount N D c ≤ (N.fanins c).length := by
  unfold doneCount
  refine Nat.le_trans List.countP_le_length ?_
  have := ((N.fanins c).map Prod.fst).dedup_sublist.length_le
  rwa [List.length_map] at this

theorem doneCount_eq {D : List Nat} {c : Nat} (h : doneCount N D c = (N.fanins c).length) :
    ((N.fanins c).map Prod.fst).Nodup ∧ ∀ f ∈ N.fanins c, f.1 ∈ D := by
  unfold doneCount at h
  have h1 : (((N.fanins c).map Prod.fst).dedup).countP (· ∈ D) ≤ (((N.fanins c).map Prod.fst).dedup).length := List.countP_le_length
  have h2 := ((N.fanins c).map Prod.fst).dedup_sublist.length_le
  have h3 : ((N.fanins c).map Prod.fst).length = (N.fanins c).length := List.length_map _
  have e : ((N.fanins c).map Prod.fst).dedup = (N.fanins c).map Prod.fst :=
    ((N.fanins c).map Prod.fst).dedup_sublist.eq_of_length (by omega)
  refine ⟨List.dedup_eq_self.1 e, fun f hf => ?_⟩
  rw [e] at h
  have := List.countP_eq_length.1 (h.trans h3.symm) f.1 (List.mem_map_of_mem hf)
  simpa using this

theorem doneCount_full {D : List Nat} {c : Nat} (hn : ((N.fanins c).map Prod.fst).Nodup) (h : ∀ f ∈ N.fanins c, f.1 ∈ D) :
    doneCount N D c = (N.fanins c).length := by
  unfold doneCount
  rw [List.dedup_eq_self.2 hn, ← List.length_map (f := Prod.fst), List.countP_eq_length]
  intro a ha
  rw [List.mem_map] at ha
  obtain ⟨f, hf, rfl⟩ := ha
  simpa using h f hf

/-! ## The invariant -/

/-- The invariant while the fanouts `cs` of the last node of `D` are still to be visited. -/
structure Inv (N : Net) (lev : Nat → Nat) (start D cs : List Nat) (b : Nat) (s : Bfs) : Prop where
  order : s.order = D ++ s.queue
  nodup : s.order.Nodup
  lt : ∀ n ∈ s.order, n < N.size
  pre : start <+: s.order
  counts : ∀ c < N.size, N.isGate c = true → c ∉ s.order →
    s.counts c + doneCount N D c = (N.fanins c).length + (if c ∈ cs then 1 else 0) ∧ (s.counts c = 0 → N.fanins c = [])
  plain : ∀ (j c : Nat), s.order[j]? = some c → N.isGate c = true → Plain N c ∧ ∀ f ∈ N.fanins c, ∃ i < j, s.order[i]? = some f.1
  gates : ∀ n ∈ s.order, n ∈ start ∨ N.isGate n = true
  /-- Levels do not decrease, and those in the queue are at most one more than `b`. -/
  sorted : s.order.Pairwise (fun a b => lev a ≤ lev b)
  near : ∀ n ∈ s.queue, b ≤ lev n ∧ lev n ≤ b + 1

theorem inv_child {lev : Nat → Nat} {start D cs : List Nat} {n c : Nat} {s : Bfs}
    (hlev : ∀ c < N.size, N.isGate c = true → (∀ f ∈ N.fanins c, lev f.1 ≤ lev n) → n ∈ (N.fanins c).map Prod.fst → lev c = lev n + 1)
    (hc : c < N.size) (hg : N.isGate c = true) (hr : n ∈ (N.fanins c).map Prod.fst) (hcs : c ∉ cs) (hD : ∀ a ∈ D, lev a ≤ lev n)
    (h : Inv N lev start D (c :: cs) (lev n) s) : Inv N lev start D cs (lev n) (s.child c) := by
  unfold Bfs.child
  by_cases hco : c ∈ s.order
  · rw [if_pos hco]
    refine { h with counts := fun m hm hmg hmo => ?_ }
    have := h.counts m hm hmg hmo
    have hne : m ≠ c := by rintro rfl; exact hmo hco
    simp only [List.mem_cons, hne, false_or] at this
    exact this
  · rw [if_neg hco]
    obtain ⟨k1, k2⟩ := h.counts c hc hg hco
    rw [if_pos List.mem_cons_self] at k1
    have hne : N.fanins c ≠ [] := by
      intro e
      rw [e] at hr
      cases hr
    have hpos : s.counts c ≠ 0 := fun e => hne (k2 e)
    have cnt : ∀ m < N.size, N.isGate m = true → m ∉ s.order →
        (if m = c then s.counts c - 1 else s.counts m) + doneCount N D m = (N.fanins m).length + (if m ∈ cs then 1 else 0) := by
      intro m hm hmg hmo
      by_cases hmc : m = c
      · subst hmc
        rw [if_pos rfl, if_neg hcs]
        omega
      · rw [if_neg hmc]
        have := (h.counts m hm hmg hmo).1
        simpa only [List.mem_cons, hmc, false_or] using this
    simp only [if_true]
    by_cases h0 : s.counts c - 1 = 0
    · rw [if_pos h0]
      obtain ⟨p1, p2⟩ := doneCount_eq (N := N) (D := D) (c := c) (by omega)
      have hl : lev c = lev n + 1 := hlev c hc hg (fun f hf => hD _ (p2 f hf)) hr
      refine ⟨?_, ?_, ?_, ?_, ?_, ?_, ?_, ?_, ?_⟩
      · show s.order ++ [c] = D ++ (s.queue ++ [c])
        rw [h.order, List.append_assoc]
      · show (s.order ++ [c]).Nodup
        rw [List.nodup_append]
        refine ⟨h.nodup, by simp, ?_⟩
        intro a ha b hb
        rw [List.mem_singleton] at hb
        rintro rfl
        exact hco (hb ▸ ha)
      · show ∀ n ∈ s.order ++ [c], n < N.size
        intro m hm
        rcases List.mem_append.1 hm with hm | hm
        · exact h.lt m hm
        · rw [List.mem_singleton] at hm
          exact hm ▸ hc
      · exact h.pre.trans (List.prefix_append _ _)
      · show ∀ m < N.size, N.isGate m = true → m ∉ s.order ++ [c] → _
        intro m hm hmg hmo
        rw [List.mem_append, List.mem_singleton, not_or] at hmo
        refine ⟨cnt m hm hmg hmo.1, ?_⟩
        show (if m = c then s.counts c - 1 else s.counts m) = 0 → _
        rw [if_neg hmo.2]
        exact (h.counts m hm hmg hmo.1).2
      · show ∀ (j m : Nat), (s.order ++ [c])[j]? = some m → N.isGate m = true → Plain N m ∧ ∀ f ∈ N.fanins m, ∃ i < j, (s.order ++ [c])[i]? = some f.1
        intro j m hj hm
        have lift : ∀ (i a : Nat), s.order[i]? = some a → (s.order ++ [c])[i]? = some a := by
          intro i a hi
          rw [List.getElem?_append_left (List.getElem?_eq_some_iff.1 hi).1]
          exact hi
        rcases Nat.lt_or_ge j s.order.length with hlt | hge
        · rw [List.getElem?_append_left hlt] at hj
          obtain ⟨q1, q2⟩ := h.plain j m hj hm
          refine ⟨q1, fun f hf => ?_⟩
          obtain ⟨i, hi, e⟩ := q2 f hf
          exact ⟨i, hi, lift _ _ e⟩
        · rw [List.getElem?_append_right hge] at hj
          have hmc : m = c := by
            obtain ⟨x, y⟩ := List.getElem?_eq_some_iff.1 hj
            simp at x
            simp [x] at y
            exact y.symm
          subst hmc
          refine ⟨⟨hne, p1⟩, fun f hf => ?_⟩
          have hmem : f.1 ∈ s.order := by
            rw [h.order]
            exact List.mem_append_left _ (p2 f hf)
          obtain ⟨i, hi⟩ := List.mem_iff_getElem?.1 hmem
          have := (List.getElem?_eq_some_iff.1 hi).1
          exact ⟨i, by omega, lift _ _ hi⟩
      · show ∀ m ∈ s.order ++ [c], _
        intro m hm
        rcases List.mem_append.1 hm with hm | hm
        · exact h.gates m hm
        · rw [List.mem_singleton] at hm
          exact Or.inr (hm ▸ hg)
      · show (s.order ++ [c]).Pairwise _
        rw [List.pairwise_append]
        refine ⟨h.sorted, by simp, ?_⟩
        intro a ha b hb
        rw [List.mem_singleton] at hb
        rw [hb, hl]
        rw [h.order] at ha
        rcases List.mem_append.1 ha with ha | ha
        · exact Nat.le_succ_of_le (hD a ha)
        · exact (h.near a ha).2
      · show ∀ m ∈ s.queue ++ [c], _
        intro m hm
        rcases List.mem_append.1 hm with hm | hm
        · exact h.near m hm
        · rw [List.mem_singleton] at hm
          rw [hm, hl]
          omega
    · rw [if_neg h0]
      refine { h with counts := fun m hm hmg hmo => ⟨cnt m hm hmg hmo, ?_⟩ }
      show (if m = c then s.counts c - 1 else s.counts m) = 0 → _
      by_cases hmc : m = c
      · rw [if_pos hmc]
        intro e
        exact absurd e h0
      · rw [if_neg hmc]
        exact (h.counts m hm hmg hmo).2

theorem inv_children {lev : Nat → Nat} {start D : List Nat} {n : Nat}
    (hlev : ∀ c < N.size, N.isGate c = true → (∀ f ∈ N.fanins c, lev f.1 ≤ lev n) → n ∈ (N.fanins c).map Prod.fst → lev c = lev n + 1)
    (hD : ∀ a ∈ D, lev a ≤ lev n) : ∀ (cs : List Nat) (s : Bfs), cs.Nodup →
      (∀ c ∈ cs, c < N.size ∧ N.isGate c = true ∧ n ∈ (N.fanins c).map Prod.fst) → Inv N lev start D cs (lev n) s →
      Inv N lev start D [] (lev n) (cs.foldl Bfs.child s) := by
  intro cs
  induction cs with
  | nil => intro s _ _ h; exact h
  | cons c cs ih =>
    intro s hn hc h
    rw [List.nodup_cons] at hn
    obtain ⟨h1, h2, h3⟩ := hc c List.mem_cons_self
    exact ih _ hn.2 (fun c hm => hc c (List.mem_cons_of_mem _ hm)) (inv_child hlev h1 h2 h3 hn.1 hD h)

theorem fanouts_facts (n : Nat) : (fanouts N n).Nodup ∧ ∀ c, c ∈ fanouts N n ↔ c < N.size ∧ N.isGate c = true ∧ n ∈ (N.fanins c).map Prod.fst := by
  unfold fanouts
  refine ⟨List.nodup_range.filter _, fun c => ?_⟩
  rw [List.mem_filter, List.mem_range, Bool.and_eq_true, decide_eq_true_eq]

theorem bfsLoop_spec {lev : Nat → Nat} {start : List Nat}
    (hlev : ∀ n, ∀ c < N.size, N.isGate c = true → (∀ f ∈ N.fanins c, lev f.1 ≤ lev n) → n ∈ (N.fanins c).map Prod.fst → lev c = lev n + 1) :
    ∀ (k : Nat) (D : List Nat) (b : Nat) (s : Bfs), N.size - D.length < k → Inv N lev start D [] b s →
      ∃ order s' b', bfsLoop N k s = some order ∧ s'.order = order ∧ s'.queue = [] ∧ Inv N lev start order [] b' s' := by
  intro k
  induction k with
  | zero => intro D b s h; omega
  | succ k ih =>
    intro D b s hk h
    unfold bfsLoop
    cases hq : s.queue with
    | nil =>
      refine ⟨s.order, s, b, rfl, rfl, hq, ?_⟩
      have : D = s.order := by rw [h.order, hq, List.append_nil]
      rw [← this]
      exact h
    | cons n q =>
      have ho : s.order = (D ++ [n]) ++ q := by
        rw [h.order, hq]
        simp
      have hnd := h.nodup
      rw [ho] at hnd
      have hnD : n ∉ D := by
        intro hc
        rw [List.append_assoc, List.nodup_append] at hnd
        exact hnd.2.2 n hc n (List.mem_append_left _ (List.mem_singleton_self n)) rfl
      have hso := h.sorted
      rw [h.order, hq, List.pairwise_append] at hso
      have hDn : ∀ a ∈ D ++ [n], lev a ≤ lev n := by
        intro a ha
        rcases List.mem_append.1 ha with ha | ha
        · exact hso.2.2 a ha n List.mem_cons_self
        · exact Nat.le_of_eq (congrArg lev (List.mem_singleton.1 ha))
      have hlen : (D ++ [n]).length ≤ N.size := by
        have hnd' : (D ++ [n]).Nodup := (List.nodup_append.1 hnd).1
        have hlt : ∀ a ∈ D ++ [n], a ∈ List.range N.size := by
          intro a ha
          rw [List.mem_range]
          exact h.lt a (by rw [ho]; exact List.mem_append_left _ ha)
        have := (hnd'.subperm hlt).length_le
        rwa [List.length_range] at this
      obtain ⟨f1, f2⟩ := fanouts_facts (N := N) n
      have hinv : Inv N lev start (D ++ [n]) (fanouts N n) (lev n) { s with queue := q } := by
        refine ⟨ho, h.nodup, h.lt, h.pre, ?_, h.plain, h.gates, h.sorted, ?_⟩
        · intro c hc hg hco
          obtain ⟨k1, k2⟩ := h.counts c hc hg hco
          refine ⟨?_, k2⟩
          show s.counts c + _ = _
          rw [doneCount_append hnD]
          have hiff : c ∈ fanouts N n ↔ n ∈ (N.fanins c).map Prod.fst := by
            rw [f2]
            exact ⟨fun h => h.2.2, fun h => ⟨hc, hg, h⟩⟩
          simp only [List.not_mem_nil, if_false] at k1
          by_cases hr : n ∈ (N.fanins c).map Prod.fst
          · rw [if_pos hr, if_pos (hiff.2 hr)]
            omega
          · rw [if_neg hr, if_neg fun hh => hr (hiff.1 hh)]
            omega
        · intro m hm
          have h1 := h.near n (by rw [hq]; exact List.mem_cons_self)
          have h2 := h.near m (by rw [hq]; exact List.mem_cons_of_mem _ hm)
          have := hso.2.1
          rw [List.pairwise_cons] at this
          have := this.1 m hm
          exact ⟨this, by omega⟩
      have := inv_children (hlev n) hDn (fanouts N n) _ f1 (fun c hc => (f2 c).1 hc) hinv
      refine ih (D ++ [n]) _ _ ?_ this
      rw [List.length_append, List.length_singleton] at hlen ⊢
      omega

/-! ## Theorems -/

theorem level_exists (H : N.WF) (ps : Params) (n : Nat) (hn : n < N.size) : ∃ l, IsLevel N ps n l := by
  obtain ⟨num, h1, h2⟩ := H.acyclic
  obtain ⟨l, -, -, hl, -⟩ := computeLevel_spec (ps := ps) H h2 (N.size + 1) ⟨[], fun _ => none⟩ n hn (by have := h1 n hn; omega)
    ⟨fun m hm => (List.not_mem_nil hm).elim, fun _ _ => rfl⟩
  exact ⟨l, hl⟩

open Classical in
/-- The length of a longest path to a node. -/
noncomputable def lev (N : Net) (n : Nat) : Nat := if h : ∃ l, IsLevel N {} n l then Classical.choose h else 0

theorem lev_spec (H : N.WF) {n : Nat} (hn : n < N.size) : IsLevel N {} n (lev N n) := by
  have h := level_exists H {} n hn
  unfold lev
  rw [dif_pos h]
  exact Classical.choose_spec h

theorem lev_gate (H : N.WF) (n c : Nat) (hc : c < N.size) (hg : N.isGate c = true) (hf : ∀ f ∈ N.fanins c, lev N f.1 ≤ lev N n)
    (hr : n ∈ (N.fanins c).map Prod.fst) : lev N c = lev N n + 1 := by
  unfold Net.isGate at hg
  rw [Bool.and_eq_true, Bool.not_eq_true', Bool.not_eq_true'] at hg
  have compl : ∀ b, Params.compl {} b = 0 := fun b => rfl
  rw [List.mem_map] at hr
  obtain ⟨g, hgm, rfl⟩ := hr
  have := isLevel_gate (N := N) (ps := {}) (l := lev N g.1) hg.1 hg.2
    (Or.inr ⟨g, hgm, lev N g.1, lev_spec H (H.fanins c hc g hgm), rfl⟩)
    (fun f hfm => ⟨lev N f.1, lev_spec H (H.fanins c hc f hfm), by rw [compl]; exact hf f hfm⟩)
  exact (lev_spec H hc).unique this

theorem start_facts {c0 c1 : Nat} (hc : Consts N c0 c1) :
    (constNodes c0 c1 ++ N.cis.filter fun n => decide (n ∉ constNodes c0 c1)) = constNodes c0 c1 ++ N.cis ∧ (constNodes c0 c1 ++ N.cis).Nodup ∧
      (∀ n ∈ constNodes c0 c1 ++ N.cis, n < N.size ∧ (N.isConst n = true ∨ N.isCi n = true)) ∧
      ∀ n < N.size, N.isGate n = false → n ∈ constNodes c0 c1 ++ N.cis := by
  have hmem : ∀ n, n ∈ constNodes c0 c1 ↔ n = c0 ∨ n = c1 := by
    intro n
    unfold constNodes
    split
    · rename_i h
      simp [h]
    · simp
  have hci : ∀ n, n ∈ N.cis ↔ n < N.size ∧ N.isCi n = true := by
    intro n
    unfold Net.cis
    rw [List.mem_filter, List.mem_range]
  have hdis : ∀ n ∈ N.cis, n ∉ constNodes c0 c1 := by
    intro n hn hcn
    obtain ⟨h1, h2⟩ := (hci n).1 hn
    have := (hc.iff n h1).2 ((hmem n).1 hcn)
    rw [hc.ci n h2] at this
    cases this
  have hlt : ∀ n ∈ constNodes c0 c1, n < N.size := by
    intro n hn
    rcases (hmem n).1 hn with rfl | rfl
    · exact hc.lt.1
    · exact hc.lt.2
  refine ⟨?_, ?_, ?_, ?_⟩
  · congr 1
    rw [List.filter_eq_self]
    intro n hn
    rw [decide_eq_true_eq]
    exact hdis n hn
  · rw [List.nodup_append]
    refine ⟨?_, List.nodup_range.filter _, ?_⟩
    · unfold constNodes
      split
      · simp
      · rename_i h
        simpa using fun e => h e.symm
    · rintro a ha b hb rfl
      exact hdis a hb ha
  · intro n hn
    rcases List.mem_append.1 hn with h | h
    · exact ⟨hlt n h, Or.inl ((hc.iff n (hlt n h)).2 ((hmem n).1 h))⟩
    · exact ⟨((hci n).1 h).1, Or.inr ((hci n).1 h).2⟩
  · intro n hn hg
    unfold Net.isGate at hg
    rw [List.mem_append, hmem, hci]
    cases h1 : N.isConst n
    · cases h2 : N.isCi n
      · rw [h1, h2] at hg
        cases hg
      · exact Or.inr ⟨hn, rfl⟩
    · exact Or.inl ((hc.iff n hn).1 h1)

theorem bfs_final (H : N.WF) {c0 c1 : Nat} (hc : Consts N c0 c1) : ∃ order s b, bfsOrder N c0 c1 = some order ∧ s.order = order ∧ s.queue = [] ∧
    Inv N (lev N) (constNodes c0 c1 ++ N.cis) order [] b s := by
  obtain ⟨e, h1, h2, h3⟩ := start_facts hc
  have lev0 : ∀ n ∈ constNodes c0 c1 ++ N.cis, lev N n = 0 := by
    intro n hn
    obtain ⟨hlt, hs⟩ := h2 n hn
    have := (lev_spec H hlt).unique (isLevel_source H hs)
    rw [this]
    unfold sourceCost
    rcases hs with hs | hs <;> simp [hs]
  have hns : ∀ n ∈ constNodes c0 c1 ++ N.cis, N.isGate n = false := by
    intro n hn
    unfold Net.isGate
    rcases (h2 n hn).2 with hs | hs <;> simp [hs]
  unfold bfsOrder
  rw [e]
  refine bfsLoop_spec (lev_gate H) (N.size + 1) [] 0 _ (by simp) ?_
  refine ⟨rfl, h1, fun n hn => (h2 n hn).1, List.prefix_refl _, ?_, ?_, fun n hn => Or.inl hn, ?_, ?_⟩
  · intro c hcl hg hco
    refine ⟨?_, fun h0 => List.length_eq_zero_iff.1 h0⟩
    have : doneCount N [] c = 0 := by
      unfold doneCount
      rw [List.countP_eq_zero]
      simp
    rw [this]
    simp
  · intro j c hj hg
    rw [hns c (List.mem_of_getElem? hj)] at hg
    cases hg
  · refine List.pairwise_of_forall_mem_list ?_
    intro a ha b hb
    rw [lev0 a ha, lev0 b hb]
    exact Nat.le_refl 0
  · intro n hn
    rw [lev0 n hn]
    omega

/-- **C73** (breadth-first order) The order exists for every network. It contains each node at most once, the constants first, then the inputs in the order of their
creation, and every node after its fanins; the lengths of the longest paths to the nodes do not decrease. It contains all nodes that depend on no gate that reads
a node twice (or nothing). -/
theorem C73_order (H : N.WF) {c0 c1 : Nat} (hc : Consts N c0 c1) : ∃ order, bfsOrder N c0 c1 = some order ∧ order.Nodup ∧
    (∀ n, n ∈ order ↔ n < N.size ∧ PlainCone N n) ∧ (constNodes c0 c1 ++ N.cis) <+: order ∧
    (∀ (j c : Nat), order[j]? = some c → ∀ f ∈ N.fanins c, ∃ i < j, order[i]? = some f.1) ∧
    ∀ (i j a b la lb : Nat), i < j → order[i]? = some a → order[j]? = some b → IsLevel N {} a la → IsLevel N {} b lb → la ≤ lb := by
  obtain ⟨order, s, b, e, ho, hq, I⟩ := bfs_final H hc
  obtain ⟨-, s1, s2, s3⟩ := start_facts hc
  have source : ∀ n ∈ constNodes c0 c1 ++ N.cis, N.fanins n = [] := fun n hn => H.source n (s2 n hn).2
  refine ⟨order, e, ho ▸ I.nodup, ?_, ho ▸ I.pre, ?_, ?_⟩
  · intro n
    constructor
    · intro hn
      refine ⟨I.lt n (ho ▸ hn), ?_⟩
      have key : ∀ m, Needs N n m → m ∈ s.order := by
        intro m hm
        induction hm with
        | refl => rw [ho]; exact hn
        | tail _ h ih =>
          obtain ⟨f, hf, rfl⟩ := h
          rcases I.gates _ ih with hs | hg
          · rw [source _ hs] at hf
            cases hf
          · obtain ⟨j, hj⟩ := List.mem_iff_getElem?.1 ih
            obtain ⟨i, -, hi⟩ := (I.plain j _ hj hg).2 f hf
            exact List.mem_of_getElem? hi
      intro m hm hg
      obtain ⟨j, hj⟩ := List.mem_iff_getElem?.1 (key m hm)
      exact (I.plain j m hj hg).1
    · rintro ⟨hn, hp⟩
      obtain ⟨num, n1, n2⟩ := H.acyclic
      have key : ∀ k n, num n = k → n < N.size → PlainCone N n → n ∈ s.order := by
        intro k
        induction k using Nat.strongRecOn with
        | _ k ih =>
          intro n hk hn hp
          cases hg : N.isGate n with
          | false => exact I.pre.subset (s3 n hn hg)
          | true =>
            by_contra hno
            obtain ⟨p1, p2⟩ := hp n .refl hg
            have hall : ∀ f ∈ N.fanins n, f.1 ∈ order := by
              intro f hf
              rw [← ho]
              exact ih (num f.1) (hk ▸ n2 n hn f hf) f.1 rfl (H.fanins n hn f hf) fun m hm hgm => hp m (Relation.ReflTransGen.head ⟨f, hf, rfl⟩ hm) hgm
            obtain ⟨k1, k2⟩ := I.counts n hn hg hno
            rw [doneCount_full p2 hall] at k1
            simp only [List.not_mem_nil, if_false] at k1
            exact p1 (k2 (by omega))
      rw [← ho]
      exact key _ n rfl hn hp
  · intro j c hj f hf
    rw [← ho] at hj ⊢
    rcases I.gates c (List.mem_of_getElem? hj) with hs | hg
    · rw [source c hs] at hf
      cases hf
    · exact (I.plain j c hj hg).2 f hf
  · intro i j a b la lb hij ha hb hla hlb
    rw [← ho] at ha hb
    have h1 := (lev_spec H (I.lt a (List.mem_of_getElem? ha))).unique hla
    have h2 := (lev_spec H (I.lt b (List.mem_of_getElem? hb))).unique hlb
    obtain ⟨x1, x2⟩ := List.getElem?_eq_some_iff.1 ha
    obtain ⟨y1, y2⟩ := List.getElem?_eq_some_iff.1 hb
    have := List.pairwise_iff_getElem.1 I.sorted i j x1 y1 hij
    rw [x2, y2, h1, h2] at this
    exact this

/-- **C73** (all nodes) If no gate reads a node twice, or nothing, the order contains all nodes, also those that no output depends on. -/
theorem C73_all (H : N.WF) {c0 c1 : Nat} (hc : Consts N c0 c1) (hp : ∀ n < N.size, N.isGate n = true → Plain N n) {order : List Nat}
    (ho : bfsOrder N c0 c1 = some order) : order.Perm (List.range N.size) := by
  obtain ⟨order', e, h1, h2, -⟩ := C73_order H hc
  obtain rfl : order' = order := Option.some.inj (e.symm.trans ho)
  rw [List.perm_ext_iff_of_nodup h1 List.nodup_range]
  intro n
  rw [h2, List.mem_range]
  exact ⟨fun h => h.1, fun h => ⟨h, fun m hm hg => hp m (Needs.lt H h hm) hg⟩⟩

/-- **C73** (gates) `foreach_gate` visits the gates of the order. -/
theorem C73_gates (H : N.WF) {c0 c1 : Nat} (hc : Consts N c0 c1) {order : List Nat} (ho : bfsOrder N c0 c1 = some order) :
    bfsGates N c0 c1 order = order.filter N.isGate := by
  obtain ⟨order', s, b, e, hs, hq, I⟩ := bfs_final H hc
  obtain rfl : order' = order := Option.some.inj (e.symm.trans ho)
  obtain ⟨-, s1, s2, s3⟩ := start_facts hc
  have hpre := I.pre
  rw [hs] at hpre
  obtain ⟨rest, hr⟩ := hpre
  have hlen : (constNodes c0 c1 ++ N.cis).length = 1 + N.cis.length + if c1 ≠ c0 then 1 else 0 := by
    rw [List.length_append]
    unfold constNodes
    by_cases h : c1 = c0 <;> simp [h] <;> omega
  unfold bfsGates
  rw [← hlen, ← hr, List.drop_left, List.filter_append, List.filter_eq_nil_iff.2, List.nil_append, List.filter_eq_self.2]
  · intro n hn
    have hmem : n ∈ s.order := by rw [hs, ← hr]; exact List.mem_append_right _ hn
    rcases I.gates n hmem with h | h
    · have hnd := I.nodup
      rw [hs, ← hr, List.nodup_append] at hnd
      exact absurd rfl (hnd.2.2 n h n hn)
    · exact h
  · intro n hn
    unfold Net.isGate
    rcases (s2 n hn).2 with h | h <;> simp [h]

/-! ## Examples -/

theorem demoNet_consts : Consts demoNet 0 1 := by
  refine ⟨by decide, ?_, ?_⟩
  · intro n _
    simp only [demoNet, decide_eq_true_eq]
    omega
  · intro n hn
    simp only [demoNet, decide_eq_true_eq, decide_eq_false_iff_not] at hn ⊢
    omega

/-- The hypotheses of the theorems hold of it. -/
example : ∀ n < demoNet.size, demoNet.isGate n = true → Plain demoNet n := by
  unfold Plain
  decide +kernel

example : bfsOrder demoNet 0 1 = some [0, 1, 2, 3, 4, 5, 7, 8, 6] := by decide +kernel

/-- **C73** is false of gates that read a node twice: they are missing, and with them all nodes that depend on them, although an output does. -/
theorem C73_false_twice : ∃ (N : Net) (order : List Nat), N.WF ∧ Consts N 0 1 ∧ bfsOrder N 0 1 = some order ∧ N.pos = [(4, false)] ∧ order = [0, 1, 2] := by
  let N : Net := ⟨5, fun n => decide (n ≤ 1), fun n => decide (n = 2), fun n => if n = 3 then [(2, false), (2, false)] else if n = 4 then [(3, false)] else [],
    [(4, false)]⟩
  refine ⟨N, [0, 1, 2], ⟨?_, by decide, by decide, fun n => n, fun n h => h, by decide⟩, ⟨by decide, ?_, ?_⟩, by decide +kernel, rfl, rfl⟩
  · intro n h
    simp only [N, decide_eq_true_eq] at h
    show (if n = 3 then _ else if n = 4 then _ else _) = _
    rw [if_neg (by omega), if_neg (by omega)]
  · intro n _
    simp only [N, decide_eq_true_eq]
    omega
  · intro n hn
    simp only [N, decide_eq_true_eq, decide_eq_false_iff_not] at hn ⊢
    omega

/-- **C73**: contrary to the documentation, nodes that no output depends on are visited. -/
theorem C73_false_reachable : ∃ (N : Net) (order : List Nat) (n : Nat), N.WF ∧ Consts N 0 1 ∧ bfsOrder N 0 1 = some order ∧ N.isGate n = true ∧ n ∈ order ∧
    ¬ Used N n := by
  refine ⟨demoNet, [0, 1, 2, 3, 4, 5, 7, 8, 6], 8, demoNet_wf, demoNet_consts, by decide +kernel, by decide, by decide, ?_⟩
  rintro ⟨p, hp, hn⟩
  have hnum : ∀ a b, a ≤ 7 → Needs demoNet a b → b ≤ 7 := by
    intro a b ha h
    induction h with
    | refl => exact ha
    | tail _ h ih =>
      obtain ⟨f, hf, rfl⟩ := h
      simp only [demoNet] at hf
      rename_i b' c'
      have : ∀ b ≤ 7, ∀ f ∈ demoNet.fanins b, f.1 ≤ 7 := by decide
      exact this _ ih f hf
  have : ∀ p ∈ demoNet.pos, p.1 ≤ 7 := by decide
  have := hnum p.1 8 (this p hp) hn
  omega

end Verif.Views
