import Verif.Networks.VirtualPiProps

/-!
# C50: network conversion preserves the function
# C51: the virtual miter
-/
namespace Verif.Networks

/-- A network with complemented edges as it results from the creation functions. -/
structure XNtk.WF (X : XNtk) (numPis : Nat) : Prop where
  fanins : ∀ i < X.size, ∀ f ∈ (X.node i).fanins, f.1 < i
  pis : ∀ i k, X.node i = .pi k → k < numPis
  pos : ∀ p ∈ X.pos, p.1 < X.size

/-- The order in which `topo_view::foreach_gate` visits the gates. -/
structure XTopoOrder (X : XNtk) (order : List Nat) : Prop where
  gates : ∀ g ∈ order, g < X.size ∧ (X.node g).isGate = true
  fanins : ∀ l g r, order = l ++ g :: r → ∀ f ∈ (X.node g).fanins, (X.node f.1).isGate = true → f.1 ∈ l
  pos : ∀ p ∈ X.pos, (X.node p.1).isGate = true → p.1 ∈ order

namespace XNtk

theorem evalList_append (a : Nat → Bool) (l : List XNode) (x : XNode) :
    evalList a (l ++ [x]) = evalList a l ++ [x.value a (fun i => (evalList a l).getD i false)] := by
  unfold evalList; simp [List.foldl_append]

theorem length_evalList (a : Nat → Bool) (l : List XNode) : (evalList a l).length = l.length := by
  induction l using List.reverseRecOn with
  | nil => rfl
  | append_singleton l x ih => rw [evalList_append]; simp [ih]

theorem value_append (l : List XNode) (x : XNode) (ps : List (Nat × Bool)) (a : Nat → Bool) (i : Nat) :
    (⟨l ++ [x], ps⟩ : XNtk).value a i = if i = l.length then x.value a ((⟨l, ps⟩ : XNtk).value a) else (⟨l, ps⟩ : XNtk).value a i := by
  unfold value
  dsimp only
  rw [evalList_append]
  have hl := length_evalList a l
  split
  · rename_i h
    subst h
    rw [List.getD_eq_getElem?_getD, List.getElem?_append_right (by rw [hl]), hl]
    simp
  · rename_i h
    rw [List.getD_eq_getElem?_getD, List.getD_eq_getElem?_getD]
    by_cases hi : i < l.length
    · rw [List.getElem?_append_left (by rw [hl]; exact hi)]
    · rw [List.getElem?_eq_none (by simp [hl]; omega), List.getElem?_eq_none (by rw [hl]; omega)]

theorem node_append (l : List XNode) (x : XNode) (ps : List (Nat × Bool)) (i : Nat) :
    (⟨l ++ [x], ps⟩ : XNtk).node i = if i = l.length then x else (⟨l, ps⟩ : XNtk).node i := by
  unfold node
  dsimp only
  rw [List.getD_eq_getElem?_getD, List.getD_eq_getElem?_getD]
  split
  · rename_i h; subst h; simp
  · by_cases hi : i < l.length
    · rw [List.getElem?_append_left hi]
    · rw [List.getElem?_eq_none (by simp; omega), List.getElem?_eq_none (by omega)]

theorem value_eq (X : XNtk) (hw : ∀ i < X.size, ∀ f ∈ (X.node i).fanins, f.1 < i) (a : Nat → Bool) (i : Nat)
    (hi : i < X.size) : X.value a i = (X.node i).value a (X.value a) := by
  obtain ⟨l, ps⟩ := X
  induction l using List.reverseRecOn with
  | nil => simp [size] at hi
  | append_singleton l x ih =>
    unfold size at hi hw
    simp only [List.length_append, List.length_cons, List.length_nil] at hi hw
    have hcongr : ∀ (y : XNode), (∀ f ∈ y.fanins, f.1 < l.length) →
        y.value a ((⟨l, ps⟩ : XNtk).value a) = y.value a ((⟨l ++ [x], ps⟩ : XNtk).value a) := by
      intro y hy
      cases y with
      | const b => rfl
      | pi k => rfl
      | gate fn fs =>
        show fn _ = fn _
        congr 1
        apply List.map_congr_left
        intro f hf
        have := hy f hf
        rw [value_append, if_neg (by omega)]
    rw [value_append, node_append]
    by_cases h : i = l.length
    · rw [if_pos h, if_pos h]
      apply hcongr
      intro f hf
      have := hw i (by omega) f (by rw [node_append, if_pos h]; exact hf)
      omega
    · rw [if_neg h, if_neg h]
      have hw' : ∀ j < (⟨l, ps⟩ : XNtk).size, ∀ f ∈ ((⟨l, ps⟩ : XNtk).node j).fanins, f.1 < j := by
        intro j hj f hf
        unfold size at hj
        simp only at hj
        exact hw j (by omega) f (by rw [node_append, if_neg (by omega)]; exact hf)
      rw [ih hw' (by unfold size; simp only; omega)]
      apply hcongr
      intro f hf
      have := hw' i (by unfold size; simp only; omega) f hf
      omega

end XNtk

/-- `create_not` yields the complement. -/
theorem createNot_spec (k : Nat) (N : Ntk) (hs : Shape k N) (s : Nat) (h : s < N.size) :
    Shape k (createNot N s).1 ∧ Ext N (createNot N s).1 ∧ (createNot N s).2 < (createNot N s).1.size ∧
      ∀ a, (createNot N s).1.value a (createNot N s).2 = !N.value a s := by
  have h0 : ∀ a, N.value a 0 = false ∧ N.value a 1 = true ∧ 2 ≤ N.size := by
    intro a
    have e := hs.ext
    have e0 := e.value a 0 (by rw [initCopy_size]; omega)
    have e1 := e.value a 1 (by rw [initCopy_size]; omega)
    have e2 := e.size
    rw [initCopy_size] at e2
    rw [(initCopy_value k a).1] at e0
    rw [(initCopy_value k a).2.1] at e1
    refine ⟨e0, e1, ?_⟩
    have : N.size = (⟨N.nodes, []⟩ : Ntk).size := rfl
    omega
  have gen : Shape k (N.add (.gate (fun l => !l.getD 0 false) [s])).1 ∧ Ext N (N.add (.gate (fun l => !l.getD 0 false) [s])).1 ∧
      (N.add (.gate (fun l => !l.getD 0 false) [s])).2 < (N.add (.gate (fun l => !l.getD 0 false) [s])).1.size ∧
      ∀ a, (N.add (.gate (fun l => !l.getD 0 false) [s])).1.value a (N.add (.gate (fun l => !l.getD 0 false) [s])).2 = !N.value a s := by
    refine ⟨hs.add rfl (by simpa [Node.fanins] using h), Ext.add _ _, ?_, ?_⟩
    · rw [Ntk.size_add]; show N.size < _; omega
    · intro a
      rw [Ntk.value_add, if_pos (show (N.add _).2 = N.size from rfl)]
      rfl
  unfold createNot
  cases hx : N.node s with
  | const c =>
    dsimp only
    refine ⟨hs, Ext.refl _, ?_, ?_⟩
    · have := (h0 (fun _ => false)).2.2
      split <;> omega
    · intro a
      obtain ⟨v0, v1, -⟩ := h0 a
      rw [N.value_eq hs.fanins a s h, hx]
      cases c <;> simp [Node.value, v0, v1]
  | pi j => exact gen
  | buf f => exact gen
  | gate fn fs => exact gen

/-- A signal together with its complement flag. -/
theorem convertSignal_spec (k : Nat) (N : Ntk) (hs : Shape k N) (s : Nat) (c : Bool) (h : s < N.size) :
    Shape k (if c then createNot N s else (N, s)).1 ∧ Ext N (if c then createNot N s else (N, s)).1 ∧
      (if c then createNot N s else (N, s)).2 < (if c then createNot N s else (N, s)).1.size ∧
      ∀ a, (if c then createNot N s else (N, s)).1.value a (if c then createNot N s else (N, s)).2 = xor (N.value a s) c := by
  cases c with
  | false => exact ⟨hs, Ext.refl _, h, fun a => by simp⟩
  | true =>
    obtain ⟨h1, h2, h3, h4⟩ := createNot_spec k N hs s h
    exact ⟨h1, h2, h3, fun a => by simpa using h4 a⟩

theorem convertChildren_spec (k : Nat) (o2n : Nat → Nat) : ∀ (fs : List (Nat × Bool)) (N : Ntk), Shape k N →
    (∀ f ∈ fs, o2n f.1 < N.size) →
    Shape k (convertChildren o2n fs N).1 ∧ Ext N (convertChildren o2n fs N).1 ∧
      (∀ c ∈ (convertChildren o2n fs N).2, c < (convertChildren o2n fs N).1.size) ∧
      ∀ a, (convertChildren o2n fs N).2.map ((convertChildren o2n fs N).1.value a) = fs.map fun f => xor (N.value a (o2n f.1)) f.2 := by
  intro fs
  induction fs with
  | nil => intro N hs _; exact ⟨hs, Ext.refl _, by simp [convertChildren], fun _ => rfl⟩
  | cons f fs ih =>
    intro N hs h
    obtain ⟨a1, a2, a3, a4⟩ := convertSignal_spec k N hs (o2n f.1) f.2 (h f (List.mem_cons_self ..))
    have e : convertChildren o2n (f :: fs) N =
        ((convertChildren o2n fs (if f.2 then createNot N (o2n f.1) else (N, o2n f.1)).1).1,
         (if f.2 then createNot N (o2n f.1) else (N, o2n f.1)).2 :: (convertChildren o2n fs (if f.2 then createNot N (o2n f.1) else (N, o2n f.1)).1).2) := rfl
    rw [e]
    generalize (if f.2 then createNot N (o2n f.1) else (N, o2n f.1)) = r at a1 a2 a3 a4 ⊢
    obtain ⟨b1, b2, b3, b4⟩ := ih r.1 a1 (fun g hg => lt_of_lt_of_le (h g (List.mem_cons_of_mem _ hg)) a2.size)
    refine ⟨b1, a2.trans b2, ?_, ?_⟩
    · intro c hc
      rcases List.mem_cons.1 hc with rfl | hc
      · exact lt_of_lt_of_le a3 b2.size
      · exact b3 c hc
    · intro a
      simp only [List.map_cons]
      rw [b4 a, b2.value a _ a3, a4 a]
      congr 1
      apply List.map_congr_left
      intro g hg
      rw [a2.value a _ (h g (List.mem_cons_of_mem _ hg))]

theorem convert_fold (X : XNtk) (k : Nat) (hX : X.WF k) (order : List Nat) (ho : XTopoOrder X order) :
    ∀ (l done : List Nat), done ++ l = order → ∀ (st : Ntk × (Nat → Nat)), Shape k st.1 → 
    (∀ n < X.size, ((X.node n).isGate = false ∨ n ∈ done) → st.2 n < st.1.size ∧ ∀ a, st.1.value a (st.2 n) = X.value a n) →
    Shape k (l.foldl (convertGate X) st).1 ∧ Ext st.1 (l.foldl (convertGate X) st).1 ∧
    ∀ n < X.size, ((X.node n).isGate = false ∨ n ∈ order) → (l.foldl (convertGate X) st).2 n < (l.foldl (convertGate X) st).1.size ∧
      ∀ a, (l.foldl (convertGate X) st).1.value a ((l.foldl (convertGate X) st).2 n) = X.value a n := by
  intro l
  induction l with
  | nil => intro done e st hs h; simp at e; subst e; exact ⟨hs, Ext.refl _, h⟩
  | cons n l ih =>
    intro done e st hs h
    rw [List.foldl_cons]
    obtain ⟨hn, hg⟩ := ho.gates n (by rw [← e]; simp)
    have hc : ∀ f ∈ (X.node n).fanins, st.2 f.1 < st.1.size ∧ ∀ a, st.1.value a (st.2 f.1) = X.value a f.1 := by
      intro f hf
      refine h f.1 (by have := hX.fanins n hn f hf; omega) ?_
      by_cases hfg : (X.node f.1).isGate = true
      · exact Or.inr (ho.fanins done n l e.symm f hf hfg)
      · exact Or.inl (by simpa using hfg)
    have hgo : Shape k (convertGate X st n).1 ∧ Ext st.1 (convertGate X st n).1 ∧
        (convertGate X st n).2 n < (convertGate X st n).1.size ∧ (∀ a, (convertGate X st n).1.value a ((convertGate X st n).2 n) = X.value a n) ∧
        ∀ m, m ≠ n → (convertGate X st n).2 m = st.2 m := by
      cases hx : X.node n with
      | const c => rw [hx] at hg; cases hg
      | pi j => rw [hx] at hg; cases hg
      | gate fn fs =>
        rw [hx] at hc
        obtain ⟨a1, a2, a3, a4⟩ := convertChildren_spec k st.2 fs st.1 hs (fun f hf => (hc f hf).1)
        have e2 : convertGate X st n = (((convertChildren st.2 fs st.1).1.add (.gate fn (convertChildren st.2 fs st.1).2)).1,
            fun m => if m = n then (convertChildren st.2 fs st.1).1.size else st.2 m) := by
          unfold convertGate; rw [hx]; rfl
        rw [e2]
        dsimp only
        refine ⟨a1.add rfl a3, a2.trans (Ext.add _ _), ?_, ?_, ?_⟩
        · rw [if_pos rfl, Ntk.size_add]; omega
        · intro a
          rw [if_pos rfl, Ntk.value_add, if_pos rfl, X.value_eq hX.fanins a n hn, hx]
          show fn _ = fn _
          rw [a4 a]
          congr 1
          apply List.map_congr_left
          intro f hf
          rw [(hc f hf).2 a]
        · intro m hm; rw [if_neg hm]
    obtain ⟨g1, g2, g3, g4, g5⟩ := hgo
    obtain ⟨i1, i2, i3⟩ := ih (done ++ [n]) (by simpa using e) (convertGate X st n) g1 (by
      intro m hm hd
      by_cases e2 : m = n
      · subst e2; exact ⟨g3, g4⟩
      · rw [g5 m e2]
        have := h m hm (by
          rcases hd with hd | hd
          · exact Or.inl hd
          · simp [e2] at hd; exact Or.inr hd)
        exact ⟨lt_of_lt_of_le this.1 g2.size, fun a => (g2.value a _ this.1).trans (this.2 a)⟩)
    exact ⟨i1, g2.trans i2, i3⟩

/-- The outputs created so far do not matter for extensions of the network. -/
theorem convertPos_spec (k : Nat) (o2n : Nat → Nat) : ∀ (l : List (Nat × Bool)) (N : Ntk), Shape k N → (∀ p ∈ N.pos, p < N.size) →
    (∀ p ∈ l, o2n p.1 < N.size) →
    Shape k (l.foldl (convertPo o2n) N) ∧ (∀ p ∈ (l.foldl (convertPo o2n) N).pos, p < (l.foldl (convertPo o2n) N).size) ∧
    ∀ a, (l.foldl (convertPo o2n) N).outputs a = N.outputs a ++ l.map fun p => xor (N.value a (o2n p.1)) p.2 := by
  intro l
  induction l with
  | nil => intro N hs hp _; exact ⟨hs, hp, by simp⟩
  | cons p l ih =>
    intro N hs hp h
    rw [List.foldl_cons]
    obtain ⟨a1, a2, a3, a4⟩ := convertSignal_spec k N hs (o2n p.1) p.2 (h p (List.mem_cons_self ..))
    have e : convertPo o2n N p = (if p.2 then createNot N (o2n p.1) else (N, o2n p.1)).1.createPo
        (if p.2 then createNot N (o2n p.1) else (N, o2n p.1)).2 := rfl
    rw [e]
    generalize (if p.2 then createNot N (o2n p.1) else (N, o2n p.1)) = r at a1 a2 a3 a4 ⊢
    have hval : ∀ a i, (r.1.createPo r.2).value a i = r.1.value a i := fun _ _ => rfl
    obtain ⟨b1, b2, b3⟩ := ih (r.1.createPo r.2) ⟨a1.ext, a1.fanins, a1.gates⟩ (by
      intro q hq
      show q < r.1.size
      have : q ∈ r.1.pos ++ [r.2] := hq
      rw [a2.pos] at this
      rcases List.mem_append.1 this with hq | hq
      · exact lt_of_lt_of_le (hp q hq) a2.size
      · simp at hq; subst hq; exact a3)
      (fun q hq => lt_of_lt_of_le (h q (List.mem_cons_of_mem _ hq)) a2.size)
    refine ⟨b1, b2, ?_⟩
    intro a
    rw [b3 a]
    have : (r.1.createPo r.2).outputs a = N.outputs a ++ [xor (N.value a (o2n p.1)) p.2] := by
      unfold Ntk.outputs
      show (r.1.pos ++ [r.2]).map (r.1.value a) = _
      rw [List.map_append, a2.pos]
      congr 1
      · apply List.map_congr_left
        intro q hq
        exact a2.value a _ (hp q hq)
      · simp [a4 a]
    rw [this]
    simp only [List.map_cons, List.append_assoc, List.singleton_append]
    congr 2
    apply List.map_congr_left
    intro q hq
    rw [hval, a2.value a _ (h q (List.mem_cons_of_mem _ hq))]

/-- The converted network has the inputs and, for every assignment of them, the outputs of the source,
whichever edges and outputs are complemented. -/
theorem C50_convert (X : XNtk) (k : Nat) (hX : X.WF k) (order : List Nat) (ho : XTopoOrder X order) :
    (convertNetwork X k order).WF k ∧ ∀ a, (convertNetwork X k order).outputs a = X.outputs a := by
  have hinit : ∀ n < X.size, ((X.node n).isGate = false ∨ n ∈ ([] : List Nat)) →
      X.initMap n < (Ntk.initCopy k).size ∧ ∀ a, (Ntk.initCopy k).value a (X.initMap n) = X.value a n := by
    intro n hn hd
    simp only [List.not_mem_nil, or_false] at hd
    rw [initCopy_size]
    unfold XNtk.initMap
    cases hx : X.node n with
    | const c =>
      refine ⟨by dsimp only; split <;> omega, ?_⟩
      intro a
      rw [X.value_eq hX.fanins a n hn, hx]
      obtain ⟨v0, v1, -⟩ := initCopy_value k a
      cases c <;> simp [XNode.value, v0, v1]
    | pi j =>
      have := hX.pis n j hx
      refine ⟨by dsimp only; omega, ?_⟩
      intro a
      rw [X.value_eq hX.fanins a n hn, hx]
      exact (initCopy_value k a).2.2 j this
    | gate fn fs => rw [hx] at hd; cases hd
  obtain ⟨a1, a2, a3⟩ := convert_fold X k hX order ho order [] rfl (Ntk.initCopy k, X.initMap) (initCopy_shape k) hinit
  have hdom : ∀ p ∈ X.pos, (X.node p.1).isGate = false ∨ p.1 ∈ order := by
    intro p hp
    by_cases hg : (X.node p.1).isGate = true
    · exact Or.inr (ho.pos p hp hg)
    · exact Or.inl (by simpa using hg)
  unfold convertNetwork
  dsimp only
  generalize order.foldl (convertGate X) (Ntk.initCopy k, X.initMap) = st at a1 a2 a3 ⊢
  have hpos : st.1.pos = [] := a2.pos
  obtain ⟨b1, b2, b3⟩ := convertPos_spec k st.2 X.pos st.1 a1 (by rw [hpos]; simp)
    (fun p hp => (a3 p.1 (hX.pos p hp) (hdom p hp)).1)
  refine ⟨b1.wf b2, ?_⟩
  intro a
  rw [b3 a]
  unfold Ntk.outputs XNtk.outputs
  rw [hpos, List.map_nil, List.nil_append]
  apply List.map_congr_left
  intro p hp
  rw [(a3 p.1 (hX.pos p hp) (hdom p hp)).2 a]

/-- An AIG: the output is the complement of an AND with a complemented fanin; the second output is the
complemented constant, the third an input. -/
def exAig : XNtk :=
  ⟨[.const false, .pi 0, .pi 1, .gate (fun l => l.getD 0 false && l.getD 1 false) [(1, true), (2, false)]],
    [(3, true), (0, true), (1, false)]⟩

theorem exAig_wf : exAig.WF 2 := by
  refine ⟨?_, ?_, ?_⟩
  · intro i hi f hf
    rcases i with _ | _ | _ | _ | i <;> simp [XNtk.node, exAig, XNode.fanins] at hf
    rcases hf with rfl | rfl <;> simp
  · intro i k hk
    rcases i with _ | _ | _ | _ | i <;> simp [XNtk.node, exAig] at hk <;> omega
  · intro p hp
    simp [exAig] at hp
    rcases hp with rfl | rfl | rfl <;> simp [XNtk.size, exAig]

theorem exAig_topo : XTopoOrder exAig [3] := by
  refine ⟨?_, ?_, ?_⟩
  · intro g hg; simp at hg; subst hg; exact ⟨by simp [XNtk.size, exAig], rfl⟩
  · intro l g r e f hf hg
    match l, e with
    | [], e =>
      simp at e; rw [← e.1] at hf; simp [XNtk.node, exAig, XNode.fanins] at hf
      rcases hf with rfl | rfl <;> cases hg
    | x :: l, e => simp at e
  · intro p hp hg
    simp [exAig] at hp
    rcases hp with rfl | rfl | rfl
    · simp
    · cases hg
    · cases hg

/-- Non-vacuity. -/
example : exAig.WF 2 ∧ XTopoOrder exAig [3] ∧ (convertNetwork exAig 2 [3]).size = 7 ∧
    exAig.outputs (fun k => k == 1) = [false, true, false] ∧
    (convertNetwork exAig 2 [3]).outputs (fun k => k == 1) = [false, true, false] :=
  ⟨exAig_wf, exAig_topo, by decide, by decide, by decide⟩

/-! ## C51 -/

/-- The copy of a network over given inputs. -/
theorem copyInto_spec (k : Nat) (S : Ntk) (hS : S.WF k) (order : List Nat) (ho : TopoOrder S order) (N : Ntk) (hN : Shape k N) :
    Shape k (copyInto S order ((List.range k).map (2 + ·)) N).1 ∧ Ext N (copyInto S order ((List.range k).map (2 + ·)) N).1 ∧
    (∀ p ∈ (copyInto S order ((List.range k).map (2 + ·)) N).2, p < (copyInto S order ((List.range k).map (2 + ·)) N).1.size) ∧
    ∀ a, (copyInto S order ((List.range k).map (2 + ·)) N).2.map ((copyInto S order ((List.range k).map (2 + ·)) N).1.value a) = S.outputs a := by
  have main := fun a => copy_fold S hS.fanins order ho id (fun n => n < S.size ∧ (S.node n).isGate = false) a a
    (fun f hf hg => ⟨⟨hf, hg⟩, rfl⟩) (fun _ _ _ => rfl) k order [] rfl (N, copyMap S ((List.range k).map (2 + ·))) hN (by
      rintro n (⟨h1, h2⟩ | h)
      · dsimp only
        rw [S.value_eq hS.fanins a n h1]
        obtain ⟨v0, v1, v2⟩ := initCopy_value k a
        have hv : ∀ i < k + 2, N.value a i = (Ntk.initCopy k).value a i := by
          intro i hi
          exact hN.ext.value a i (by rw [initCopy_size]; omega)
        have hsz : k + 2 ≤ N.size := by
          have := hN.ext.size; rw [initCopy_size] at this; exact this
        unfold copyMap
        cases hx : S.node n with
        | const c => cases c <;> simp [Node.value, hv, v0, v1] <;> omega
        | pi j =>
          obtain ⟨j', hj, e⟩ := hS.pis n (by rw [hx]; rfl)
          rw [hx] at e; cases e
          dsimp only
          have e2 : ((List.range k).map (2 + ·)).getD j 0 = 2 + j := by
            rw [List.getD_eq_getElem?_getD, List.getElem?_map, List.getElem?_range hj]; rfl
          rw [e2]
          refine ⟨by omega, ?_⟩
          rw [hv _ (by omega), v2 j hj]
          rfl
        | buf c => rw [hx] at h2; cases h2
        | gate c d => rw [hx] at h2; cases h2
      · simp at h) (by
      rintro n hn ⟨-, h2⟩
      have := (ho.gates n hn).2
      rw [h2] at this; cases this)
  have hdom : ∀ p ∈ S.pos, (p < S.size ∧ (S.node p).isGate = false) ∨ p ∈ order := by
    intro p hp
    obtain ⟨h1, h2 | h2⟩ := gate_of_fanin_wf S order ho k hS p hp
    · exact Or.inl ⟨h1, h2⟩
    · exact Or.inr h2
  have e : copyStep S id = copyGate S := rfl
  unfold copyInto
  dsimp only
  rw [e] at main
  obtain ⟨m1, m2, m3, -⟩ := main (fun _ => false)
  refine ⟨m3, m2, ?_, ?_⟩
  · intro p hp
    obtain ⟨q, hq, rfl⟩ := List.mem_map.1 hp
    exact (m1 q (hdom q hq)).1
  · intro a
    rw [List.map_map]
    apply List.map_congr_left
    intro p hp
    exact ((main a).1 p (hdom p hp)).2

theorem xorPairs_spec (k : Nat) : ∀ (l : List (Nat × Nat)) (N : Ntk), Shape k N → (∀ p ∈ l, p.1 < N.size ∧ p.2 < N.size) →
    Shape k (xorPairs l N).1 ∧ Ext N (xorPairs l N).1 ∧ (∀ x ∈ (xorPairs l N).2, x < (xorPairs l N).1.size) ∧
    ∀ a, (xorPairs l N).2.map ((xorPairs l N).1.value a) = l.map fun p => xor (N.value a p.1) (N.value a p.2) := by
  intro l
  induction l with
  | nil => intro N hs _; exact ⟨hs, Ext.refl _, by simp [xorPairs], fun _ => rfl⟩
  | cons p l ih =>
    intro N hs h
    have hp := h p (List.mem_cons_self ..)
    rw [xorPairs]
    dsimp only
    have hs1 : Shape k (N.add (.gate (fun l => xor (l.getD 0 false) (l.getD 1 false)) [p.1, p.2])).1 :=
      hs.add rfl (by
        intro f hf
        simp [Node.fanins] at hf
        rcases hf with rfl | rfl
        · exact hp.1
        · exact hp.2)
    have hsz := Ntk.size_add N (.gate (fun l => xor (l.getD 0 false) (l.getD 1 false)) [p.1, p.2])
    have hx : ∀ a, (N.add (.gate (fun l => xor (l.getD 0 false) (l.getD 1 false)) [p.1, p.2])).1.value a N.size =
        xor (N.value a p.1) (N.value a p.2) := by
      intro a; rw [Ntk.value_add, if_pos rfl]; rfl
    have hv : ∀ a i, i < N.size → (N.add (.gate (fun l => xor (l.getD 0 false) (l.getD 1 false)) [p.1, p.2])).1.value a i = N.value a i := by
      intro a i hi; rw [Ntk.value_add, if_neg (by omega)]
    have h2 : (N.add (.gate (fun l => xor (l.getD 0 false) (l.getD 1 false)) [p.1, p.2])).2 = N.size := rfl
    have he := Ext.add N (.gate (fun l => xor (l.getD 0 false) (l.getD 1 false)) [p.1, p.2])
    rw [h2]
    generalize (N.add (.gate (fun l => xor (l.getD 0 false) (l.getD 1 false)) [p.1, p.2])).1 = N1 at hs1 hsz hx hv he ⊢
    have hl : ∀ q ∈ l, q.1 < N.size ∧ q.2 < N.size := fun q hq => h q (List.mem_cons_of_mem _ hq)
    obtain ⟨a1, a2, a3, a4⟩ := ih N1 hs1 (fun q hq => by have := hl q hq; omega)
    refine ⟨a1, he.trans a2, ?_, ?_⟩
    · intro x hxm
      rcases List.mem_cons.1 hxm with rfl | hxm
      · have := a2.size; omega
      · exact a3 x hxm
    · intro a
      simp only [List.map_cons]
      rw [a4 a, a2.value a _ (by omega), hx a]
      congr 1
      apply List.map_congr_left
      intro q hq
      rw [hv a _ (hl q hq).1, hv a _ (hl q hq).2]

theorem any_xor_zip : ∀ (l1 l2 : List Bool), l1.length = l2.length →
    ((l1.zip l2).any (fun p => xor p.1 p.2) = true ↔ l1 ≠ l2) := by
  intro l1
  induction l1 with
  | nil => intro l2 h; cases l2 <;> simp_all
  | cons x l1 ih =>
    intro l2 h
    cases l2 with
    | nil => simp at h
    | cons y l2 =>
      simp only [List.zip_cons_cons, List.any_cons, Bool.or_eq_true]
      rw [ih l2 (by simpa using h)]
      cases x <;> cases y <;> simp

/-- A miter is built exactly for networks with the same numbers of inputs and outputs. -/
theorem C51_defined (S1 S2 : Ntk) (k1 k2 : Nat) (o1 o2 : List Nat) :
    (virtualMiter S1 S2 k1 k2 o1 o2).isSome ↔ k1 = k2 ∧ S1.pos.length = S2.pos.length := by
  unfold virtualMiter
  split
  · rename_i h; simp; intro e; simp [e] at h; exact h
  · rename_i h
    push Not at h
    dsimp only
    split <;> simp [h]

/-- The miter has the inputs of the networks and one output, which is true for exactly those assignments for
which the networks have different outputs. -/
theorem C51_miter (S1 S2 : Ntk) (k : Nat) (o1 o2 : List Nat) (M : Ntk) (h1 : S1.WF k) (h2 : S2.WF k)
    (ho1 : TopoOrder S1 o1) (ho2 : TopoOrder S2 o2) (h : virtualMiter S1 S2 k k o1 o2 = some M) :
    M.WF k ∧ ∃ f : (Nat → Bool) → Bool, (∀ a, M.outputs a = [f a]) ∧ ∀ a, f a = true ↔ S1.outputs a ≠ S2.outputs a := by
  unfold virtualMiter at h
  split at h
  · cases h
  rename_i hc
  push Not at hc
  dsimp only at h
  obtain ⟨a1, a2, a3, a4⟩ := copyInto_spec k S1 h1 o1 ho1 (Ntk.initCopy k) (initCopy_shape k)
  generalize copyInto S1 o1 ((List.range k).map (2 + ·)) (Ntk.initCopy k) = r1 at h a1 a2 a3 a4
  obtain ⟨b1, b2, b3, b4⟩ := copyInto_spec k S2 h2 o2 ho2 r1.1 a1
  generalize copyInto S2 o2 ((List.range k).map (2 + ·)) r1.1 = r2 at h b1 b2 b3 b4
  have hzip : ∀ p ∈ r1.2.zip r2.2, p.1 < r2.1.size ∧ p.2 < r2.1.size := by
    intro p hp
    have := List.of_mem_zip hp
    exact ⟨lt_of_lt_of_le (a3 _ this.1) b2.size, b3 _ this.2⟩
  obtain ⟨c1, c2, c3, c4⟩ := xorPairs_spec k (r1.2.zip r2.2) r2.1 b1 hzip
  generalize xorPairs (r1.2.zip r2.2) r2.1 = r3 at h c1 c2 c3 c4
  have hlen : ∀ a, (S1.outputs a).length = (S2.outputs a).length := by
    intro a; unfold Ntk.outputs; simpa using hc.2
  -- the exclusive-ors of the outputs
  have hxs : ∀ a, r3.2.map (r3.1.value a) = ((S1.outputs a).zip (S2.outputs a)).map fun p => xor p.1 p.2 := by
    intro a
    rw [c4 a, ← b4 a, ← a4 a, List.zip_map, List.map_map]
    apply List.map_congr_left
    intro p hp
    have := List.of_mem_zip hp
    simp only [Function.comp, Prod.map]
    rw [b2.value a _ (a3 _ this.1)]
  have hpos : r3.1.pos = [] := by rw [c2.pos, b2.pos, a2.pos]; rfl
  have hsz : k + 2 ≤ r3.1.size := by
    have := c1.ext.size; rw [initCopy_size] at this; exact this
  split at h
  · rename_i e
    cases h
    refine ⟨Shape.wf ⟨c1.ext, c1.fanins, c1.gates⟩ ?_, fun _ => false, ?_, ?_⟩
    · intro p hp
      have hp : p ∈ r3.1.pos ++ [0] := hp
      rw [hpos] at hp
      simp at hp; subst hp
      show 0 < r3.1.size
      omega
    · intro a
      show (r3.1.pos ++ [0]).map (r3.1.value a) = [false]
      rw [hpos]
      have := c1.ext.value a 0 (by rw [initCopy_size]; omega)
      rw [(initCopy_value k a).1] at this
      simp only [List.nil_append, List.map_cons, List.map_nil]
      rw [← this]; rfl
    · intro a
      have := hxs a
      rw [e] at this
      rw [← any_xor_zip _ _ (hlen a)]
      have h0 : (S1.outputs a).zip (S2.outputs a) = [] := by
        have := congrArg List.length this
        simp only [List.map_nil, List.length_nil, List.length_map] at this
        exact List.length_eq_zero_iff.1 this.symm
      rw [h0]; simp
  · cases h
    have hfan : ∀ f ∈ (Node.gate (fun l => l.any id) r3.2).fanins, f < r3.1.size := c3
    have hs4 := c1.add (x := .gate (fun l => l.any id) r3.2) rfl hfan
    refine ⟨Shape.wf ⟨hs4.ext, hs4.fanins, hs4.gates⟩ ?_, fun a => (r3.2.map (r3.1.value a)).any id, ?_, ?_⟩
    · intro p hp
      have hp : p ∈ r3.1.pos ++ [r3.1.size] := hp
      rw [hpos] at hp
      simp at hp; subst hp
      show r3.1.size < (r3.1.add _).1.size
      rw [Ntk.size_add]; omega
    · intro a
      show (r3.1.pos ++ [r3.1.size]).map ((r3.1.add (.gate (fun l => l.any id) r3.2)).1.value a) = _
      rw [hpos]
      simp only [List.nil_append, List.map_cons, List.map_nil]
      rw [Ntk.value_add, if_pos rfl]
      rfl
    · intro a
      dsimp only
      rw [hxs a, List.any_map, ← any_xor_zip _ _ (hlen a)]
      rfl

/-- Two networks are equivalent iff the miter's output is false for every assignment. -/
theorem C51_equivalence (S1 S2 : Ntk) (k : Nat) (o1 o2 : List Nat) (M : Ntk) (h1 : S1.WF k) (h2 : S2.WF k)
    (ho1 : TopoOrder S1 o1) (ho2 : TopoOrder S2 o2) (h : virtualMiter S1 S2 k k o1 o2 = some M) :
    (∀ a, S1.outputs a = S2.outputs a) ↔ ∀ a, M.outputs a = [false] := by
  obtain ⟨-, f, e, hf⟩ := C51_miter S1 S2 k o1 o2 M h1 h2 ho1 ho2 h
  constructor
  · intro H a
    rw [e a]
    have := (hf a).not.2 (by simpa using H a)
    simpa using this
  · intro H a
    have := H a
    rw [e a] at this
    by_contra hne
    have := (hf a).2 hne
    simp_all

/-- Non-vacuity: a miter whose output is true for some but not all assignments. -/
example : (exVirtual [4, 2]).ntk.WF 2 ∧ (exVirtual [4, 3]).ntk.WF 2 ∧ TopoOrder (exVirtual [4, 2]).ntk [4] ∧
    TopoOrder (exVirtual [4, 3]).ntk [4] ∧ ∃ M, virtualMiter (exVirtual [4, 2]).ntk (exVirtual [4, 3]).ntk 2 2 [4] [4] = some M ∧
      M.outputs (fun k => k == 1) = [true] ∧ M.outputs (fun _ => true) = [false] :=
  ⟨(exVirtual_wf _ (by decide)).ntk, (exVirtual_wf _ (by decide)).ntk, exVirtual_topo _ (by decide),
    exVirtual_topo _ (by decide), _, rfl, by decide, by decide⟩

end Verif.Networks
