import Verif.Networks.FanoutWF

/-! Copying gates into another network preserves their values. -/
namespace Verif.Networks

/-- Copy a gate after redirecting its fanins by `r`. -/
def copyStep (S : Ntk) (r : Nat → Nat) (st : Ntk × (Nat → Nat)) (n : Nat) : Ntk × (Nat → Nat) :=
  let (N', i) := st.1.add ((S.node n).withFanins ((S.node n).fanins.map fun f => st.2 (r f)))
  (N', fun m => if m = n then i else st.2 m)

/-- Translated nodes have the values of the source nodes. -/
def CopyInv (vS : Nat → Bool) (b : Nat → Bool) (dom : Nat → Prop) (st : Ntk × (Nat → Nat)) : Prop :=
  ∀ n, dom n → st.2 n < st.1.size ∧ st.1.value b (st.2 n) = vS n

theorem copy_fold (S : Ntk) (hS : ∀ i < S.size, ∀ f ∈ (S.node i).fanins, f < i) (order : List Nat) (ho : TopoOrder S order)
    (r : Nat → Nat) (P : Nat → Prop) (a b : Nat → Bool)
    (hrP : ∀ f < S.size, (S.node f).isGate = false → P (r f) ∧ S.value a (r f) = S.value a f)
    (hrg : ∀ f < S.size, (S.node f).isGate = true → r f = f) (k : Nat) :
    ∀ (l done : List Nat), done ++ l = order → ∀ (st : Ntk × (Nat → Nat)), Shape k st.1 →
    CopyInv (S.value a) b (fun n => P n ∨ n ∈ done) st →
    (∀ n ∈ l, ¬ P n) →
    CopyInv (S.value a) b (fun n => P n ∨ n ∈ order) (l.foldl (copyStep S r) st) ∧
    Ext st.1 (l.foldl (copyStep S r) st).1 ∧ Shape k (l.foldl (copyStep S r) st).1 ∧
    ∀ n, n ∉ l → (l.foldl (copyStep S r) st).2 n = st.2 n := by
  intro l
  induction l with
  | nil =>
    intro done e st hs h _
    simp at e; subst e
    exact ⟨h, Ext.refl _, hs, fun _ _ => rfl⟩
  | cons n l ih =>
    intro done e st hs h hP
    rw [List.foldl_cons]
    have hno : n ∈ order := by rw [← e]; simp
    obtain ⟨hn, hg⟩ := ho.gates n hno
    have hc : ∀ f ∈ (S.node n).fanins, st.2 (r f) < st.1.size ∧ st.1.value b (st.2 (r f)) = S.value a f := by
      intro f hf
      have hfl : f < S.size := by have := hS n hn f hf; omega
      by_cases hfg : (S.node f).isGate = true
      · rw [hrg f hfl hfg]
        exact h f (Or.inr (ho.fanins done n l e.symm f hf hfg))
      · have := hrP f hfl (by simpa using hfg)
        rw [← this.2]
        exact h _ (Or.inl this.1)
    have hfan : ∀ f ∈ ((S.node n).withFanins ((S.node n).fanins.map fun f => st.2 (r f))).fanins, f < st.1.size := by
      rw [Node.fanins_withFanins _ _ (by simp)]
      intro f hf
      obtain ⟨g, hg, rfl⟩ := List.mem_map.1 hf
      exact (hc g hg).1
    have hval : ((S.node n).withFanins ((S.node n).fanins.map fun f => st.2 (r f))).value b (st.1.value b) = S.value a n := by
      rw [S.value_eq hS a n hn]
      have := Node.value_withFanins (S.node n) ((S.node n).fanins.map fun f => st.2 (r f)) b (S.value a) (st.1.value b) (by
        rw [List.map_map]
        apply List.map_congr_left
        intro f hf
        exact (hc f hf).2)
      rw [this]
      cases hx : S.node n with
      | const c => rw [hx] at hg; cases hg
      | pi j => rw [hx] at hg; cases hg
      | buf f => rfl
      | gate fn fs => rfl
    have hgate : ((S.node n).withFanins ((S.node n).fanins.map fun f => st.2 (r f))).isGate = true := by
      rw [Node.isGate_eq, Node.withFanins_isConst, Node.withFanins_isPi, ← Node.isGate_eq]; exact hg
    have h1 : CopyInv (S.value a) b (fun m => P m ∨ m ∈ done ++ [n]) (copyStep S r st n) := by
      intro m hm
      unfold copyStep
      dsimp only
      rw [Ntk.size_add, Ntk.value_add]
      by_cases e2 : m = n
      · subst e2
        rw [if_pos rfl]
        refine ⟨Nat.lt_succ_self _, ?_⟩
        rw [if_pos (show (st.1.add _).2 = st.1.size from rfl)]; exact hval
      · rw [if_neg e2]
        have := h m (by
          rcases hm with hm | hm
          · exact Or.inl hm
          · simp [e2] at hm; exact Or.inr hm)
        refine ⟨by omega, ?_⟩
        rw [if_neg (by omega)]; exact this.2
    obtain ⟨i1, i2, i3, i4⟩ := ih (done ++ [n]) (by simpa using e) (copyStep S r st n) (hs.add hgate hfan) h1
      (fun m hm => hP m (List.mem_cons_of_mem _ hm))
    refine ⟨i1, (Ext.add _ _).trans i2, i3, ?_⟩
    intro m hm
    rw [i4 m (fun hm' => hm (List.mem_cons_of_mem _ hm'))]
    show (if m = n then _ else st.2 m) = st.2 m
    rw [if_neg (by rintro rfl; exact hm (List.mem_cons_self ..))]

theorem foldl_createPo (f : Nat → Nat) : ∀ (l : List Nat) (N : Ntk),
    l.foldl (fun N p => N.createPo (f p)) N = ⟨N.nodes, N.pos ++ l.map f⟩ := by
  intro l
  induction l with
  | nil => intro N; simp
  | cons p l ih => intro N; rw [List.foldl_cons, ih]; simp [Ntk.createPo]

theorem initCopy_value (k : Nat) (b : Nat → Bool) : (Ntk.initCopy k).value b 0 = false ∧ (Ntk.initCopy k).value b 1 = true ∧
    ∀ j < k, (Ntk.initCopy k).value b (2 + j) = b j := by
  have hw := (initCopy_shape k).fanins
  refine ⟨?_, ?_, ?_⟩
  · rw [Ntk.value_eq _ hw _ _ (by rw [initCopy_size]; omega), initCopy_node]; rfl
  · rw [Ntk.value_eq _ hw _ _ (by rw [initCopy_size]; omega), initCopy_node]; rfl
  · intro j hj
    rw [Ntk.value_eq _ hw _ _ (by rw [initCopy_size]; omega), initCopy_node, if_neg (by omega), if_neg (by omega), if_pos (by omega)]
    show b (2 + j - 2) = b j
    congr 1; omega

end Verif.Networks
