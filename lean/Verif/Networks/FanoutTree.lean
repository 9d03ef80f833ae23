import Verif.Networks.FanoutFun
import Mathlib.Tactic.Tauto

/-! Capacity of the trees of buffers. -/
namespace Verif.Networks

/-- What a generated tree with `k` buffers under the root `r` provides. -/
structure TreeSpec (d k : Nat) (N : Ntk) (r : Nat) (N' : Ntk) (q : List Nat) : Prop where
  ext : Ext N N'
  size : N'.size = N.size + k
  old : ∀ i < N.size, N'.fanoutSize i = N.fanoutSize i + if i = r then 1 else 0
  new : ∀ i, N.size ≤ i → i < N'.size → (∃ f < i, N'.node i = .buf f) ∧ N'.fanoutSize i ≤ d
  mem : ∀ b ∈ q, N.size ≤ b ∧ b < N'.size
  cap : 1 + k * (d - 1) ≤ ∑ b ∈ q.toFinset, (d - N'.fanoutSize b)
  closed : N'.Closed

/-- Invariant of the loops of the breadth-first and of the random generation: `s` is the number of nodes
before the generation. -/
structure GrowInv (d s r : Nat) (base : Ntk) (N : Ntk) (q : List Nat) : Prop where
  ge : s ≤ N.size
  closed : N.Closed
  old : ∀ i < s, N.fanoutSize i = base.fanoutSize i + if i = r then 1 else 0
  new : ∀ i, s ≤ i → i < N.size → (∃ f < i, N.node i = .buf f) ∧ N.fanoutSize i + q.count i = d
  mem : ∀ b ∈ q, s ≤ b ∧ b < N.size

theorem Ntk.node_add_lt (N : Ntk) (x : Node) (i : Nat) (h : i < N.size) : (N.add x).1.node i = N.node i := by
  rw [Ntk.node_add, if_neg (by omega)]

theorem Ntk.fanoutSize_add_buf (N : Ntk) (c i : Nat) :
    (N.add (.buf c)).1.fanoutSize i = N.fanoutSize i + if i = c then 1 else 0 := by
  rw [Ntk.fanoutSize_add]
  show _ + List.count i [c] = _
  by_cases h : i = c
  · subst h; simp
  · rw [if_neg h, List.count_eq_zero_of_not_mem (by simpa using h)]

theorem count_replicate' (d s i : Nat) : (List.replicate d s).count i = if i = s then d else 0 := by
  by_cases h : i = s
  · subst h; rw [if_pos rfl, List.count_replicate_self]
  · rw [if_neg h, List.count_eq_zero_of_not_mem]
    intro hm; exact h (List.eq_of_mem_replicate hm)

theorem Grow.inv {d k : Nat} {N : Ntk} {q : List Nat} {N' : Ntk} {q' : List Nat} (h : Grow d k N q N' q')
    {s r : Nat} {base : Ntk} (hi : GrowInv d s r base N q) (hq : q.length = 1 + j * (d - 1)) (hd : 1 ≤ d) :
    GrowInv d s r base N' q' ∧ q'.length = 1 + (j + k) * (d - 1) ∧ Ext N N' ∧ N'.size = N.size + k := by
  induction h generalizing j with
  | nil => exact ⟨hi, by simpa using hq, Ext.refl _, rfl⟩
  | step k N q c q0 q1 N' q' h1 h2 h3 ih =>
    have hc := hi.mem c (h1.subset (by simp))
    have hcnt : ∀ i, q.count i = q0.count i + if i = c then 1 else 0 := by
      intro i; rw [← h1.count_eq i, List.count_cons]
      by_cases h : i = c
      · subst h; simp
      · rw [if_neg h, if_neg (by simpa using fun e => h e.symm)]
    have hcnt1 : ∀ i, q1.count i = q0.count i + if i = N.size then d else 0 := by
      intro i; rw [h2.count_eq i, List.count_append, count_replicate']
    have hfo : ∀ i, (N.add (.buf c)).1.fanoutSize i = N.fanoutSize i + if i = c then 1 else 0 :=
      N.fanoutSize_add_buf c
    have hq0 : q0.count N.size = 0 := by
      rw [List.count_eq_zero]; intro hm
      have := hi.mem _ (h1.subset (List.mem_cons_of_mem _ hm)); omega
    have hi' : GrowInv d s r base (N.add (.buf c)).1 q1 := by
      refine ⟨by rw [Ntk.size_add]; have := hi.ge; omega, hi.closed.add _ (by simp [Node.fanins]; exact hc.2), ?_, ?_, ?_⟩
      · intro i hii
        rw [hfo, hi.old i hii, if_neg (show ¬ i = c by omega)]; omega
      · intro i hsi hii
        rw [Ntk.size_add] at hii
        by_cases e : i = N.size
        · subst e
          refine ⟨⟨c, hc.2, by rw [Ntk.node_add, if_pos rfl]⟩, ?_⟩
          rw [hfo, hi.closed _ (le_refl _), hcnt1, hq0, if_neg (by omega), if_pos rfl]; omega
        · have := hi.new i hsi (by omega)
          refine ⟨by rw [Ntk.node_add, if_neg e]; exact this.1, ?_⟩
          rw [hfo, hcnt1, if_neg e]
          have h4 := hcnt i
          have h5 := this.2
          omega
      · intro b hb
        rw [Ntk.size_add]
        rcases List.mem_append.1 (h2.subset hb) with hb | hb
        · have := hi.mem b (h1.subset (List.mem_cons_of_mem _ hb)); omega
        · have := List.eq_of_mem_replicate hb; have := hi.ge; omega
    have hl : q1.length = 1 + (j + 1) * (d - 1) := by
      have e1 := h1.length_eq
      have e2 := h2.length_eq
      simp at e1 e2
      rw [e2, Nat.add_mul]; omega
    have := ih hi' hl
    refine ⟨this.1, ?_, (Ext.add _ _).trans this.2.2.1, ?_⟩
    · rw [this.2.1]; congr 2; omega
    · rw [this.2.2.2, Ntk.size_add]; omega

theorem Grow.spec {d k : Nat} {N : Ntk} {r : Nat} {N' : Ntk} {q' : List Nat} (h : Grow d (k + 1) N [r] N' q')
    (hc : N.Closed) (hr : r < N.size) (hd : 1 ≤ d) : TreeSpec d (k + 1) N r N' q' := by
  cases h with
  | step _ _ _ c q0 q1 _ _ h1 h2 h3 =>
    have e := List.perm_singleton.1 h1
    simp only [List.cons.injEq] at e
    obtain ⟨rfl, rfl⟩ := e
    rw [List.nil_append] at h2
    have hq1 := List.perm_replicate.1 h2
    subst hq1
    have hfo : ∀ i, (N.add (.buf c)).1.fanoutSize i = N.fanoutSize i + if i = c then 1 else 0 :=
      N.fanoutSize_add_buf c
    have hi : GrowInv d N.size c N (N.add (.buf c)).1 (List.replicate d N.size) := by
      refine ⟨by rw [Ntk.size_add]; omega, hc.add _ (by simp [Node.fanins]; exact hr), fun i _ => hfo i, ?_, ?_⟩
      · intro i h1 h2
        rw [Ntk.size_add] at h2
        have : i = N.size := by omega
        subst this
        refine ⟨⟨c, hr, by rw [Ntk.node_add, if_pos rfl]⟩, ?_⟩
        rw [hfo, hc _ (le_refl _), if_neg (by omega), List.count_replicate_self]; omega
      · intro b hb
        have := List.eq_of_mem_replicate hb
        rw [Ntk.size_add]; omega
    have hf := h3.inv hi (j := 1) (by simp; omega) hd
    obtain ⟨g1, g2, g3, g4⟩ := hf
    refine ⟨(Ext.add _ _).trans g3, by rw [g4, Ntk.size_add]; omega, g1.old, ?_, g1.mem, ?_, g1.closed⟩
    · intro i h1 h2
      have := g1.new i h1 h2
      exact ⟨this.1, by omega⟩
    · have : ∑ b ∈ q'.toFinset, (d - N'.fanoutSize b) = ∑ b ∈ q'.toFinset, q'.count b := by
        apply Finset.sum_congr rfl
        intro b hb
        have hm := g1.mem b (List.mem_toFinset.1 hb)
        have := (g1.new b hm.1 hm.2).2
        omega
      rw [this, List.sum_toFinset_count_eq_length, g2]
      rw [Nat.add_comm 1 k]

/-- The chain generated by the depth-first strategy. -/
theorem depth_chain (d : Nat) (hd : 1 ≤ d) : ∀ (k : Nat) (N : Ntk) (child : Nat) (q : List Nat), N.Closed → child < N.size →
    (depthTree k N child q).2 = q ++ (List.range k).map (N.size + ·) ∧
    Ext N (depthTree k N child q).1 ∧ (depthTree k N child q).1.size = N.size + k ∧
    (depthTree k N child q).1.Closed ∧
    (∀ i < N.size, (depthTree k N child q).1.fanoutSize i = N.fanoutSize i + if i = child ∧ 0 < k then 1 else 0) ∧
    (∀ j < k, (∃ f < N.size + j, (depthTree k N child q).1.node (N.size + j) = .buf f) ∧
      (depthTree k N child q).1.fanoutSize (N.size + j) = if j + 1 = k then 0 else 1) := by
  intro k
  induction k with
  | zero =>
    intro N child q hc _
    refine ⟨by simp [depthTree], Ext.refl _, rfl, hc, ?_, ?_⟩
    · intro i _; simp [depthTree]
    · intro j hj; omega
  | succ k ih =>
    intro N child q hc hch
    rw [depthTree]
    have hfo : ∀ i, (N.add (.buf child)).1.fanoutSize i = N.fanoutSize i + if i = child then 1 else 0 :=
      N.fanoutSize_add_buf child
    have hsz := Ntk.size_add N (.buf child)
    obtain ⟨a1, a2, a3, a4, a5, a6⟩ := ih (N.add (.buf child)).1 N.size (q ++ [N.size])
      (hc.add _ (by simp [Node.fanins]; exact hch)) (by omega)
    have e : (N.add (.buf child)).2 = N.size := rfl
    dsimp only
    rw [e]
    generalize hT : depthTree k (N.add (.buf child)).1 N.size (q ++ [N.size]) = T at a1 a2 a3 a4 a5 a6
    refine ⟨?_, (Ext.add _ _).trans a2, by omega, a4, ?_, ?_⟩
    · rw [a1, List.range_succ_eq_map, hsz]
      simp only [List.map_cons, List.map_map, List.append_assoc, List.singleton_append, Nat.add_zero]
      congr 2
      apply List.map_congr_left
      intro j _; simp; omega
    · intro i hi
      rw [a5 i (by omega), hfo, if_neg (show ¬ (i = N.size ∧ 0 < k) by omega)]
      by_cases hic : i = child
      · rw [if_pos hic, if_pos ⟨hic, by omega⟩]
      · rw [if_neg hic, if_neg (by tauto)]
    · intro j hj
      rcases j with _ | j
      · refine ⟨⟨child, by omega, ?_⟩, ?_⟩
        · rw [Nat.add_zero, a2.node _ (by omega), Ntk.node_add, if_pos rfl]
        · rw [Nat.add_zero, a5 _ (by omega), hfo, hc _ (le_refl _), if_neg (show ¬ N.size = child by omega)]
          split_ifs <;> omega
      · have := a6 j (by omega)
        rw [hsz, show N.size + 1 + j = N.size + (j + 1) by omega] at this
        refine ⟨this.1, ?_⟩
        rw [this.2]
        split_ifs <;> omega

theorem depth_spec (d : Nat) (hd : 1 ≤ d) (k : Nat) (N : Ntk) (r : Nat) (hc : N.Closed) (hr : r < N.size) :
    TreeSpec d (k + 1) N r (depthTree (k + 1) N r []).1 (depthTree (k + 1) N r []).2 := by
  obtain ⟨a1, a2, a3, a4, a5, a6⟩ := depth_chain d hd (k + 1) N r [] hc hr
  generalize depthTree (k + 1) N r [] = T at *
  refine ⟨a2, a3, ?_, ?_, ?_, ?_, a4⟩
  · intro i hi; rw [a5 i hi]; simp
  · intro i h1 h2
    have := a6 (i - N.size) (by omega)
    rw [show N.size + (i - N.size) = i by omega] at this
    refine ⟨this.1, ?_⟩
    rw [this.2]; split <;> omega
  · intro b hb
    rw [a1] at hb
    simp at hb
    obtain ⟨j, hj, rfl⟩ := hb
    omega
  · have hinj : Function.Injective (N.size + ·) := fun a b h => by simpa using h
    have e : T.2.toFinset = (Finset.range (k + 1)).image (N.size + ·) := by
      ext x; rw [a1]; simp
    rw [e, Finset.sum_image (fun a _ b _ h => hinj h), Finset.sum_range_succ]
    have e1 : ∑ x ∈ Finset.range k, (d - T.1.fanoutSize (N.size + x)) = ∑ x ∈ Finset.range k, (d - 1) := by
      apply Finset.sum_congr rfl
      intro x hx
      rw [Finset.mem_range] at hx
      rw [(a6 x (by omega)).2, if_neg (by omega)]
    rw [e1, (a6 k (by omega)).2, if_pos rfl, Finset.sum_const, Finset.card_range, Nat.add_mul]
    show 1 + (k * (d - 1) + 1 * (d - 1)) ≤ k * (d - 1) + (d - 0)
    omega

end Verif.Networks
