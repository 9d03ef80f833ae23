import Verif.Networks.FanoutWF

/-! Lemmas about balancing. -/
namespace Verif.Networks

namespace Ntk

theorem levelList_append (l : List Node) (x : Node) :
    levelList (l ++ [x]) = levelList l ++ [x.level (fun i => (levelList l).getD i 0)] := by
  unfold levelList; simp [List.foldl_append]

theorem length_levelList (l : List Node) : (levelList l).length = l.length := by
  induction l using List.reverseRecOn with
  | nil => rfl
  | append_singleton l x ih => rw [levelList_append]; simp [ih]

theorem level_add (N : Ntk) (x : Node) (i : Nat) :
    (N.add x).1.level i = if i = N.size then x.level N.level else N.level i := by
  unfold level add
  dsimp only
  rw [levelList_append]
  have hl := length_levelList N.nodes
  split
  · rename_i h
    subst h
    rw [List.getD_eq_getElem?_getD, List.getElem?_append_right (by rw [hl]; exact le_refl _), hl]
    simp [size]
  · rename_i h
    rw [List.getD_eq_getElem?_getD, List.getD_eq_getElem?_getD]
    by_cases hi : i < N.size
    · rw [List.getElem?_append_left (by rw [hl]; exact hi)]
    · rw [List.getElem?_eq_none (by simp [hl]; unfold size at h hi; omega),
        List.getElem?_eq_none (by rw [hl]; unfold size at hi; omega)]

theorem level_ge (N : Ntk) (i : Nat) (h : N.size ≤ i) : N.level i = 0 := by
  unfold level
  rw [List.getD_eq_getElem?_getD, List.getElem?_eq_none (by rw [length_levelList]; exact h)]; rfl

end Ntk

theorem Node.level_congr (y : Node) (v v' : Nat → Nat) (h : ∀ f ∈ y.fanins, v f = v' f) : y.level v = y.level v' := by
  cases y with
  | const b => rfl
  | pi k => rfl
  | buf f => show v f + 1 = v' f + 1; rw [h f (by simp [Node.fanins])]
  | gate fn fs =>
    show (fs.map v).foldl max 0 + 1 = (fs.map v').foldl max 0 + 1
    rw [List.map_congr_left (l := fs) (fun f hf => h f hf)]

theorem Ext.level {N N' : Ntk} (h : Ext N N') (i : Nat) (hi : i < N.size) : N'.level i = N.level i := by
  obtain ⟨⟨l, h1⟩, -⟩ := h
  unfold Ntk.level
  rw [h1]
  clear h1
  induction l using List.reverseRecOn with
  | nil => simp
  | append_singleton l x ih =>
    rw [← List.append_assoc, Ntk.levelList_append, List.getD_eq_getElem?_getD, List.getElem?_append_left,
      ← List.getD_eq_getElem?_getD, ih]
    rw [Ntk.length_levelList]; simp; unfold Ntk.size at hi; omega

theorem Ntk.level_eq (N : Ntk) (hw : ∀ i < N.size, ∀ f ∈ (N.node i).fanins, f < i) (i : Nat)
    (hi : i < N.size) : N.level i = (N.node i).level N.level := by
  obtain ⟨l, ps⟩ := N
  induction l using List.reverseRecOn with
  | nil => simp [size] at hi
  | append_singleton l x ih =>
    have e : (⟨l ++ [x], ps⟩ : Ntk) = ((⟨l, ps⟩ : Ntk).add x).1 := rfl
    rw [e] at hi hw ⊢
    rw [size_add] at hi
    rw [level_add, node_add]
    have hw' : ∀ i < (⟨l, ps⟩ : Ntk).size, ∀ f ∈ ((⟨l, ps⟩ : Ntk).node i).fanins, f < i := by
      intro j hj f hf
      refine hw j (by rw [size_add]; omega) f ?_
      rw [node_add, if_neg (by omega)]; exact hf
    by_cases h : i = (⟨l, ps⟩ : Ntk).size
    · rw [if_pos h, if_pos h]
      apply Node.level_congr
      intro f hf
      have : f < i := by
        refine hw i (by rw [size_add]; omega) f ?_
        rw [node_add, if_pos h]; exact hf
      rw [level_add, if_neg (by omega)]
    · rw [if_neg h, if_neg h, ih hw' (by omega)]
      apply Node.level_congr
      intro f hf
      have := hw' i (by omega) f hf
      rw [level_add, if_neg (by omega)]

theorem foldl_max_le (l : List Nat) : ∀ (a b : Nat), l.foldl max a ≤ b ↔ a ≤ b ∧ ∀ x ∈ l, x ≤ b := by
  induction l with
  | nil => intro a b; simp
  | cons y l ih => 
    intro a b
    simp only [List.foldl_cons, ih, List.mem_cons, forall_eq_or_imp]
    rw [Nat.max_le]; tauto

theorem le_foldl_max (l : List Nat) (a x : Nat) (h : x ∈ l) : x ≤ l.foldl max a :=
  ((foldl_max_le l a _).1 (le_refl _)).2 x h

theorem foldl_max_mem (l : List Nat) : ∀ (a : Nat), l.foldl max a = a ∨ l.foldl max a ∈ l := by
  induction l with
  | nil => intro a; simp
  | cons y l ih =>
    intro a
    rw [List.foldl_cons]
    rcases ih (max a y) with h | h
    · rw [h]
      rcases Nat.le_total a y with h1 | h1
      · right; rw [Nat.max_eq_right h1]; simp
      · left; exact Nat.max_eq_left h1
    · right; simp [h]

theorem Node.level_fanin (y : Node) (v : Nat → Nat) (f : Nat) (h : f ∈ y.fanins) : v f < y.level v := by
  cases y with
  | const b => simp [Node.fanins] at h
  | pi k => simp [Node.fanins] at h
  | buf g => simp [Node.fanins] at h; subst h; show v f < v f + 1; omega
  | gate fn fs =>
    show v f < (fs.map v).foldl max 0 + 1
    have := le_foldl_max (fs.map v) 0 (v f) (List.mem_map_of_mem h)
    omega

/-! ## The cone of the outputs -/

theorem cone_fold (N : Ntk) (hw : ∀ i < N.size, ∀ f ∈ (N.node i).fanins, f < i) : ∀ (m : Nat) (acc : List Nat), m ≤ N.size →
    (∀ x ∈ acc, x ∈ (List.range m).reverse.foldl (fun acc j => if j ∈ acc then acc ++ (N.node j).fanins else acc) acc) ∧
    (∀ x ∈ (List.range m).reverse.foldl (fun acc j => if j ∈ acc then acc ++ (N.node j).fanins else acc) acc,
      x ∈ acc ∨ x < m) ∧
    (∀ j < m, j ∈ (List.range m).reverse.foldl (fun acc j => if j ∈ acc then acc ++ (N.node j).fanins else acc) acc →
      ∀ f ∈ (N.node j).fanins,
        f ∈ (List.range m).reverse.foldl (fun acc j => if j ∈ acc then acc ++ (N.node j).fanins else acc) acc) := by
  intro m
  induction m with
  | zero => intro acc _; simp
  | succ m ih =>
    intro acc hm
    rw [List.range_succ, List.reverse_append, List.reverse_singleton, List.singleton_append, List.foldl_cons]
    obtain ⟨h1, h2, h3⟩ := ih (if m ∈ acc then acc ++ (N.node m).fanins else acc) (by omega)
    refine ⟨?_, ?_, ?_⟩
    · intro x hx
      apply h1
      split <;> simp [hx]
    · intro x hx
      rcases h2 x hx with h | h
      · split at h
        · rcases List.mem_append.1 h with h | h
          · exact Or.inl h
          · have := hw m (by omega) x h; exact Or.inr (by omega)
        · exact Or.inl h
      · exact Or.inr (by omega)
    · intro j hj hjm f hf
      by_cases e : j = m
      · subst e
        apply h1
        rcases h2 j hjm with h | h
        · split at h
          · rename_i hja
            rw [if_pos hja]; simp [hf]
          · rename_i hja; exact absurd h hja
        · omega
      · exact h3 j (by omega) hjm f hf

theorem Ntk.cone_pos (N : Ntk) (hw : ∀ i < N.size, ∀ f ∈ (N.node i).fanins, f < i) (x : Nat) (h : x ∈ N.pos) : x ∈ N.cone :=
  (cone_fold N hw N.size N.pos (le_refl _)).1 x h

theorem Ntk.cone_fanin (N : Ntk) (hw : ∀ i < N.size, ∀ f ∈ (N.node i).fanins, f < i) (j f : Nat) (hj : j < N.size)
    (h : j ∈ N.cone) (hf : f ∈ (N.node j).fanins) : f ∈ N.cone :=
  (cone_fold N hw N.size N.pos (le_refl _)).2.2 j hj h f hf

theorem fanout_pos_iff (N : Ntk) (i : Nat) : 0 < N.fanoutSize i ↔ i ∈ N.pos ∨ ∃ j < N.size, i ∈ (N.node j).fanins := by
  unfold Ntk.fanoutSize
  rw [nodes_sum_eq]
  constructor
  · intro h
    by_cases hp : 0 < N.pos.count i
    · exact Or.inl (List.count_pos_iff.1 hp)
    · right
      by_contra hc
      push Not at hc
      rw [Finset.sum_eq_zero] at h
      · omega
      · intro j hj
        exact List.count_eq_zero_of_not_mem (hc j (Finset.mem_range.1 hj))
  · rintro (h | ⟨j, hj, h⟩)
    · have := List.count_pos_iff.2 h; omega
    · have h1 := List.count_pos_iff.2 h
      have h2 := Finset.single_le_sum (f := fun j => (N.node j).fanins.count i) (fun _ _ => Nat.zero_le _) (Finset.mem_range.2 hj)
      omega

/-- If every node from `b` on has a fanout, all of them are in the cone of the outputs. -/
theorem cone_all (N : Ntk) (hw : ∀ i < N.size, ∀ f ∈ (N.node i).fanins, f < i) (b : Nat)
    (h : ∀ i < N.size, b ≤ i → 0 < N.fanoutSize i) : ∀ i < N.size, b ≤ i → i ∈ N.cone := by
  have key : ∀ (m i : Nat), N.size - i = m → i < N.size → b ≤ i → i ∈ N.cone := by
    intro m
    induction m using Nat.strong_induction_on with
    | _ m ih =>
      intro i hm hi hb
      rcases (fanout_pos_iff N i).1 (h i hi hb) with hp | ⟨j, hj, hf⟩
      · exact N.cone_pos hw i hp
      · have := hw j hj i hf
        exact N.cone_fanin hw j i hj (ih (N.size - j) (by omega) j rfl hj (by omega)) hf
  exact fun i hi hb => key _ i rfl hi hb

/-! ## Balanced networks under construction -/

structure Bal (k : Nat) (N : Ntk) : Prop where
  shape : Shape k N
  bal : ∀ i < N.size, ∀ f ∈ (N.node i).fanins, (N.node f).isConst = false → N.level i = N.level f + 1

theorem Bal.add {k : Nat} {N : Ntk} (h : Bal k N) {x : Node} (hx : x.isGate = true) (hf : ∀ f ∈ x.fanins, f < N.size)
    (hl : ∀ f ∈ x.fanins, (N.node f).isConst = false → x.level N.level = N.level f + 1) : Bal k (N.add x).1 := by
  refine ⟨h.shape.add hx hf, ?_⟩
  intro i hi f hfi hc
  rw [Ntk.size_add] at hi
  rw [Ntk.node_add] at hfi
  by_cases e : i = N.size
  · subst e
    rw [if_pos rfl] at hfi
    have := hf f hfi
    rw [Ntk.node_add, if_neg (by omega)] at hc
    rw [Ntk.level_add, if_pos rfl, Ntk.level_add, if_neg (by omega)]
    exact hl f hfi hc
  · rw [if_neg e] at hfi
    have := h.shape.fanins i (by omega) f hfi
    rw [Ntk.node_add, if_neg (by omega)] at hc
    rw [Ntk.level_add, if_neg e, Ntk.level_add, if_neg (by omega)]
    exact h.bal i (by omega) f hfi hc

/-- Nodes without fanout are pending. -/
def Used (k : Nat) (N : Ntk) (P : List Nat) : Prop := ∀ i, k + 2 ≤ i → i < N.size → 0 < N.fanoutSize i ∨ i ∈ P

/-- What a chain of buffers provides. -/
structure ChainSpec (k m : Nat) (N : Ntk) (c : Nat) (N' : Ntk) (c' : Nat) : Prop where
  ext : Ext N N'
  bal : Bal k N'
  lt : c' < N'.size
  value : ∀ a, N'.value a c' = N.value a c
  level : N'.level c' = N.level c + m
  isConst : (N.node c).isConst = false → (N'.node c').isConst = false
  mono : ∀ i, 0 < N.fanoutSize i → 0 < N'.fanoutSize i
  src : c' = c ∨ 0 < N'.fanoutSize c
  used : ∀ P, Used k N (c :: P) → Used k N' (c' :: P)

theorem bufChain_spec (k : Nat) : ∀ (m : Nat) (N : Ntk) (c : Nat), Bal k N → c < N.size →
    ChainSpec k m N c (bufChain m N c).1 (bufChain m N c).2 := by
  intro m
  induction m with
  | zero =>
    intro N c h hc
    exact ⟨Ext.refl _, h, hc, fun _ => rfl, rfl, id, fun _ => id, Or.inl rfl, fun _ => id⟩
  | succ m ih =>
    intro N c h hc
    rw [bufChain]
    have hsz := Ntk.size_add N (.buf c)
    have h1 : Bal k (N.add (.buf c)).1 := by
      refine h.add rfl (by simp [Node.fanins]; exact hc) ?_
      intro f hf _
      simp [Node.fanins] at hf
      subst hf
      rfl
    have e : (N.add (.buf c)).2 = N.size := rfl
    dsimp only
    rw [e]
    have s := ih (N.add (.buf c)).1 N.size h1 (by omega)
    generalize bufChain m (N.add (.buf c)).1 N.size = T at s
    refine ⟨(Ext.add _ _).trans s.ext, s.bal, s.lt, ?_, ?_, ?_, ?_, ?_, ?_⟩
    · intro a
      rw [s.value, Ntk.value_add, if_pos rfl]; rfl
    · rw [s.level, Ntk.level_add, if_pos rfl]
      show N.level c + 1 + m = _
      omega
    · intro _
      apply s.isConst
      rw [Ntk.node_add, if_pos rfl]; rfl
    · intro i hi
      apply s.mono
      rw [Ntk.fanoutSize_add]; omega
    · right
      apply s.mono
      rw [Ntk.fanoutSize_add_buf, if_pos rfl]; omega
    · intro P hu
      apply s.used
      intro i hk hi
      by_cases e : i = N.size
      · right; simp [e]
      · rcases hu i hk (by omega) with h2 | h2
        · left; rw [Ntk.fanoutSize_add]; omega
        · rcases List.mem_cons.1 h2 with h2 | h2
          · left; rw [Ntk.fanoutSize_add_buf, if_pos h2]; omega
          · right; simp [h2]

/-- Invariant of balancing. -/
structure BalInv (S : Ntk) (k : Nat) (st : Ntk × (Nat → Nat)) (done : List Nat) : Prop where
  bal : Bal k st.1
  map : ∀ n, Tr S done n → st.2 n < st.1.size ∧ (∀ a, st.1.value a (st.2 n) = S.value a n) ∧
    st.1.level (st.2 n) = S.level n ∧ (st.1.node (st.2 n)).isConst = (S.node n).isConst
  used : Used k st.1 (done.map st.2)
  fan : ∀ g ∈ done, ∀ f ∈ (S.node g).fanins, 0 < st.1.fanoutSize (st.2 f)

theorem BalInv.ext {S : Ntk} {k : Nat} {st : Ntk × (Nat → Nat)} {done : List Nat} (h : BalInv S k st done) {N' : Ntk}
    (hx : Ext st.1 N') (n : Nat) (hn : Tr S done n) :
    st.2 n < N'.size ∧ (∀ a, N'.value a (st.2 n) = S.value a n) ∧ N'.level (st.2 n) = S.level n ∧
      (N'.node (st.2 n)).isConst = (S.node n).isConst := by
  obtain ⟨h1, h2, h3, h4⟩ := h.map n hn
  exact ⟨lt_of_lt_of_le h1 hx.size, fun a => (hx.value a _ h1).trans (h2 a), (hx.level _ h1).trans h3, by
    rw [hx.node _ h1]; exact h4⟩

/-- What the children of a gate provide. -/
structure ChildSpec (S : Ntk) (d : Nat) (o : Nat → Nat) (N : Ntk) (f c : Nat) : Prop where
  lt : c < N.size
  value : ∀ a, N.value a c = S.value a f
  isConst : (N.node c).isConst = (S.node f).isConst
  levelC : (S.node f).isConst = true → N.level c = 0
  level : (S.node f).isConst = false → N.level c + 1 = d
  src : c = o f ∨ 0 < N.fanoutSize (o f)

theorem children_spec {S : Ntk} {k : Nat} {o : Nat → Nat} {d : Nat} {P : List Nat} : ∀ (fs : List Nat) (N : Ntk) (_ : Bal k N)
    (_ : ∀ f ∈ fs, o f < N.size ∧ (∀ a, N.value a (o f) = S.value a f) ∧ N.level (o f) = S.depthLevel f ∧
      (N.node (o f)).isConst = (S.node f).isConst ∧ ((S.node f).isConst = true → S.depthLevel f = 0) ∧
      S.depthLevel f < d)
    (_ : Used k N P),
    ∃ N' cs, balanceChildren S o d fs N = (N', cs) ∧ Ext N N' ∧ Bal k N' ∧ List.Forall₂ (ChildSpec S d o N') fs cs ∧
      (∀ i, 0 < N.fanoutSize i → 0 < N'.fanoutSize i) ∧ Used k N' (cs ++ P) := by
  intro fs
  induction fs generalizing P with
  | nil => intro N h _ hu; exact ⟨N, [], rfl, Ext.refl _, h, .nil, fun _ => id, hu⟩
  | cons f fs ih =>
    intro N h hf hu
    obtain ⟨f1, f2, f3, f4, f5, f6⟩ := hf f (List.mem_cons_self ..)
    rw [balanceChildren]
    -- the chain (possibly empty) for this fanin
    have hch : ∃ N1 c, (if (S.node f).isConst then (N, o f) else bufChain (d - S.depthLevel f - 1) N (o f)) = (N1, c) ∧
        Ext N N1 ∧ Bal k N1 ∧ ChildSpec S d o N1 f c ∧ (∀ i, 0 < N.fanoutSize i → 0 < N1.fanoutSize i) ∧
        Used k N1 (c :: P) := by
      by_cases hc : (S.node f).isConst = true
      · refine ⟨N, o f, by rw [if_pos hc], Ext.refl _, h, ⟨f1, f2, f4, fun _ => by rw [f3, f5 hc], ?_, Or.inl rfl⟩,
          fun _ => id, ?_⟩
        · intro h2; rw [hc] at h2; cases h2
        · intro i h1 h2
          exact (hu i h1 h2).imp id (fun hx => List.mem_cons_of_mem _ hx)
      · have hc' : (S.node f).isConst = false := by simpa using hc
        have s := bufChain_spec k (d - S.depthLevel f - 1) N (o f) h f1
        refine ⟨_, _, by rw [if_neg hc], s.ext, s.bal, ⟨s.lt, fun a => (s.value a).trans (f2 a), ?_, ?_, ?_, s.src⟩, s.mono,
          s.used P (fun i h1 h2 => (hu i h1 h2).imp id (fun hx => List.mem_cons_of_mem _ hx))⟩
        · rw [hc', s.isConst (by rw [f4]; exact hc')]
        · intro h2; rw [hc'] at h2; cases h2
        · intro _; rw [s.level, f3]; omega
    obtain ⟨N1, c, e1, x1, b1, s1, m1, u1⟩ := hch
    rw [e1]
    dsimp only
    obtain ⟨N2, cs, e2, x2, b2, s2, m2, u2⟩ := ih (P := c :: P) N1 b1 (by
      intro g hg
      obtain ⟨g1, g2, g3, g4, g5, g6⟩ := hf g (List.mem_cons_of_mem _ hg)
      exact ⟨lt_of_lt_of_le g1 x1.size, fun a => (x1.value a _ g1).trans (g2 a), (x1.level _ g1).trans g3,
        by rw [x1.node _ g1]; exact g4, g5, g6⟩) u1
    rw [e2]
    refine ⟨N2, c :: cs, rfl, x1.trans x2, b2, .cons ?_ s2, fun i hi => m2 i (m1 i hi), ?_⟩
    · exact ⟨lt_of_lt_of_le s1.lt x2.size, fun a => (x2.value a _ s1.lt).trans (s1.value a),
        by rw [x2.node _ s1.lt]; exact s1.isConst, fun hc => (x2.level _ s1.lt).trans (s1.levelC hc),
        fun hc => by rw [x2.level _ s1.lt]; exact s1.level hc, s1.src.imp id (m2 _)⟩
    · intro i h1 h2
      refine (u2 i h1 h2).imp id ?_
      intro hm
      simp only [List.mem_append, List.mem_cons] at hm ⊢
      tauto

/-- The levels `depth_view` reports for the nodes used by the transformation. -/
theorem depthLevel_order {S : Ntk} {k : Nat} (hS : S.WF k) {order : List Nat} (ho : TopoOrder S order) :
    ∀ n, Tr S order n → S.depthLevel n = S.level n := by
  have hcone : ∀ (m g : Nat), S.size - g = m → g ∈ order → g ∈ S.cone := by
    intro m
    induction m using Nat.strong_induction_on with
    | _ m ih =>
      intro g hm hg
      have hgs := (ho.gates g hg).1
      rcases ho.needed g hg with hp | ⟨j, hj, hf⟩
      · exact S.cone_pos hS.fanins g hp
      · have hjs := (ho.gates j hj).1
        have := hS.fanins j hjs g hf
        exact S.cone_fanin hS.fanins j g hjs (ih (S.size - j) (by omega) j rfl hj) hf
  intro n hn
  unfold Ntk.depthLevel
  split
  · rfl
  · rename_i hc
    rcases hn.2 with h | h
    · rw [S.level_eq hS.fanins n hn.1]
      cases hx : S.node n with
      | const b => rfl
      | pi j => rfl
      | buf f => rw [hx] at h; cases h
      | gate fn fs => rw [hx] at h; cases h
    · exact absurd (hcone _ n rfl h) hc

theorem level_withFanins {x : Node} (cs : List Nat) (hl : cs.length = x.fanins.length) (v v' : Nat → Nat)
    (hg : x.isGate = true) (d : Nat) (hd : x.level v' = d)
    (hne : (∃ c ∈ cs, v c + 1 = d) ∨ ∀ f ∈ x.fanins, v' f = 0) (hle : ∀ c ∈ cs, v c + 1 ≤ d) :
    (x.withFanins cs).level v = d := by
  cases x with
  | const b => cases hg
  | pi j => cases hg
  | buf f =>
    match cs, hl with
    | [c], _ =>
      show v c + 1 = d
      rcases hne with ⟨c', hc', e⟩ | h
      · simp at hc'; subst hc'; exact e
      · have h1 := h f (by simp [Node.fanins])
        have h2 := hle c (by simp)
        have h3 : v' f + 1 = d := hd
        omega
    | [], h => simp [Node.fanins] at h
    | _ :: _ :: _, h => simp [Node.fanins] at h
  | gate fn fs =>
    show (cs.map v).foldl max 0 + 1 = d
    have h1 : (cs.map v).foldl max 0 + 1 ≤ max 1 d := by
      have : (cs.map v).foldl max 0 ≤ max 1 d - 1 := by
        rw [foldl_max_le]
        refine ⟨Nat.zero_le _, ?_⟩
        intro y hy
        rw [List.mem_map] at hy
        obtain ⟨c, hc, rfl⟩ := hy
        have := hle c hc
        omega
      omega
    have hd1 : (fs.map v').foldl max 0 + 1 = d := hd
    rcases hne with ⟨c, hc, e⟩ | h
    · have := le_foldl_max (cs.map v) 0 (v c) (List.mem_map_of_mem hc)
      omega
    · have : (fs.map v').foldl max 0 = 0 := by
        have : (fs.map v').foldl max 0 ≤ 0 := by
          rw [foldl_max_le]
          refine ⟨le_refl _, ?_⟩
          intro y hy
          rw [List.mem_map] at hy
          obtain ⟨f, hf, rfl⟩ := hy
          exact le_of_eq (h f hf)
        omega
      omega

theorem forall₂_left {α β : Type} {R : α → β → Prop} {l : List α} {r : List β} (h : List.Forall₂ R l r) (x : α)
    (hx : x ∈ l) : ∃ y ∈ r, R x y := by
  induction h with
  | nil => simp at hx
  | cons hr _ ih =>
    rcases List.mem_cons.1 hx with e | hm
    · subst e; exact ⟨_, List.mem_cons_self .., hr⟩
    · obtain ⟨y, hy, hr'⟩ := ih hm
      exact ⟨y, List.mem_cons_of_mem _ hy, hr'⟩

theorem balanceGate_inv {S : Ntk} {k : Nat} (hS : S.WF k) {order : List Nat} (ho : TopoOrder S order)
    {st : Ntk × (Nat → Nat)} {done : List Nat} {n : Nat} (h : BalInv S k st done)
    (hsub : ∀ g ∈ done, g ∈ order) (hno : n ∈ order) (hnd : n ∉ done)
    (hfi : ∀ f ∈ (S.node n).fanins, (S.node f).isGate = true → f ∈ done)
    (hcl : ∀ g ∈ done, ∀ f ∈ (S.node g).fanins, (S.node f).isGate = true → f ∈ done) :
    BalInv S k (balanceGate S st n) (done ++ [n]) ∧ Ext st.1 (balanceGate S st n).1 := by
  have hn := ho.gates n hno
  have hdl := depthLevel_order hS ho
  have htr : ∀ m, Tr S done m → Tr S order m := fun m hm => ⟨hm.1, hm.2.imp id (hsub m)⟩
  have hfan : ∀ f ∈ (S.node n).fanins, Tr S done f := by
    intro f hf
    refine ⟨lt_trans (hS.fanins n hn.1 f hf) hn.1, ?_⟩
    by_cases hfg : (S.node f).isGate = true
    · exact Or.inr (hfi f hf hfg)
    · exact Or.inl (by simpa using hfg)
  have hln : S.depthLevel n = S.level n := hdl n ⟨hn.1, Or.inr hno⟩
  have hlev : S.level n = (S.node n).level S.level := S.level_eq hS.fanins n hn.1
  have hconst0 : ∀ f, f < S.size → (S.node f).isConst = true → S.level f = 0 := by
    intro f hf hc
    rw [S.level_eq hS.fanins f hf]
    revert hc; cases S.node f <;> simp [Node.isConst, Node.level]
  obtain ⟨N1, cs, e1, x1, b1, s1, m1, u1⟩ := children_spec (S := S) (k := k) (o := st.2) (d := S.depthLevel n)
    (P := done.map st.2) (S.node n).fanins st.1 h.bal (by
      intro f hf
      have ht := hfan f hf
      obtain ⟨a1, a2, a3, a4⟩ := h.map f ht
      refine ⟨a1, a2, by rw [hdl f (htr f ht)]; exact a3, a4, ?_, ?_⟩
      · intro hc; rw [hdl f (htr f ht)]; exact hconst0 f ht.1 hc
      · rw [hdl f (htr f ht), hln, hlev]; exact Node.level_fanin _ _ f hf) h.used
  unfold balanceGate
  rw [e1]
  dsimp only
  have hlen := s1.length_eq
  set x := (S.node n).withFanins cs with hx
  have hxf : x.fanins = cs := Node.fanins_withFanins _ _ hlen.symm
  have hcs : ∀ c ∈ cs, c < N1.size := by
    intro c hc
    obtain ⟨f, _, hs⟩ := forall₂_right s1 c hc
    exact hs.lt
  have hxl : x.level N1.level = S.depthLevel n := by
    refine level_withFanins cs hlen.symm N1.level S.level hn.2 _ ?_ ?_ ?_
    · rw [← hlev, hln]
    · by_cases hall : ∀ f ∈ (S.node n).fanins, (S.node f).isConst = true
      · right
        intro f hf
        exact hconst0 f (hfan f hf).1 (hall f hf)
      · left
        push Not at hall
        obtain ⟨f, hf, hc⟩ := hall
        obtain ⟨c, hc2, hs⟩ := forall₂_left s1 f hf
        exact ⟨c, hc2, hs.level (by simpa using hc)⟩
    · intro c hc
      obtain ⟨f, hf, hs⟩ := forall₂_right s1 c hc
      by_cases hcf : (S.node f).isConst = true
      · rw [hs.levelC hcf, hln, hlev]
        have := Node.level_fanin (S.node n) S.level f hf
        omega
      · exact le_of_eq (hs.level (by simpa using hcf))
  have hxg : x.isGate = true := by
    rw [hx]; revert hn; cases S.node n <;> simp [Node.withFanins, Node.isGate]
  have b2 : Bal k (N1.add x).1 := by
    refine b1.add hxg (by rw [hxf]; exact hcs) ?_
    rw [hxf]
    intro c hc hcc
    obtain ⟨f, hf, hs⟩ := forall₂_right s1 c hc
    rw [hxl, hs.level (by rw [← hs.isConst]; exact hcc)]
  have x2 : Ext st.1 (N1.add x).1 := x1.trans (Ext.add _ _)
  have hvals : ∀ a, cs.map (N1.value a) = ((S.node n).fanins).map (S.value a) := by
    intro a
    clear_value x
    clear hx hxf hxl hxg b2 x2 hcs hlen u1 e1 hfan hfi
    revert s1
    generalize (S.node n).fanins = fs
    intro s1
    induction s1 with
    | nil => rfl
    | cons hs _ ih => simp only [List.map_cons]; rw [ih, hs.value a]
  have hntr : ¬ Tr S done n := by
    rintro ⟨_, b | b⟩
    · rw [hn.2] at b; cases b
    · exact hnd b
  refine ⟨⟨b2, ?_, ?_, ?_⟩, x2⟩
  · intro m hm
    dsimp only
    by_cases e : m = n
    · subst e
      rw [if_pos rfl]
      show N1.size < _ ∧ _
      refine ⟨by rw [Ntk.size_add]; omega, ?_, ?_, ?_⟩
      · intro a
        show (N1.add x).1.value a N1.size = _
        rw [Ntk.value_add, if_pos rfl, hx, Node.value_withFanins _ _ a (S.value a) _ (hvals a),
          S.value_eq hS.fanins a m hn.1]
      · show (N1.add x).1.level N1.size = _
        rw [Ntk.level_add, if_pos rfl, hxl, hln]
      · show ((N1.add x).1.node N1.size).isConst = _
        rw [Ntk.node_add, if_pos rfl, hx, Node.withFanins_isConst]
    · rw [if_neg e]
      exact h.ext x2 m ⟨hm.1, hm.2.imp id (fun hx => by simpa [e] using hx)⟩
  · intro i h1 h2
    dsimp only at h2 ⊢
    rw [Ntk.size_add] at h2
    by_cases e : i = N1.size
    · right
      simp only [List.map_append, List.map_cons, List.map_nil, List.mem_append, List.mem_singleton]
      right
      simp only [if_true]; exact e
    · rcases u1 i h1 (by omega) with hu | hu
      · left; rw [Ntk.fanoutSize_add]; omega
      · rcases List.mem_append.1 hu with hu | hu
        · left
          rw [Ntk.fanoutSize_add, hxf]
          have := List.count_pos_iff.2 hu
          omega
        · right
          rw [List.mem_map] at hu
          obtain ⟨g, hg, rfl⟩ := hu
          rw [List.mem_map]
          refine ⟨g, by simp [hg], ?_⟩
          rw [if_neg]
          intro e2; subst e2; exact hnd hg
  · intro g hg f hf
    dsimp only
    have hfn : f ≠ n := by
      intro e
      subst e
      rcases List.mem_append.1 hg with hg | hg
      · exact hnd (hcl g hg f hf hn.2)
      · simp at hg; subst hg
        have := hS.fanins g hn.1 g hf
        omega
    rw [if_neg hfn]
    rcases List.mem_append.1 hg with hg | hg
    · have := m1 _ (h.fan g hg f hf)
      rw [Ntk.fanoutSize_add]; omega
    · simp at hg; subst hg
      obtain ⟨c, hc, hs⟩ := forall₂_left s1 f hf
      rw [Ntk.fanoutSize_add, hxf]
      rcases hs.src with e | hp
      · have := List.count_pos_iff.2 hc
        rw [e] at this; omega
      · omega

end Verif.Networks
