import Verif.Networks.FanoutBound

/-! The result of fanout substitution is a technology network with the same inputs. -/
namespace Verif.Networks

/-- A network under construction: constants and inputs first, then gates over existing nodes. -/
structure Shape (k : Nat) (N : Ntk) : Prop where
  ext : Ext (Ntk.initCopy k) ⟨N.nodes, []⟩
  fanins : ∀ i < N.size, ∀ f ∈ (N.node i).fanins, f < i
  gates : ∀ i < N.size, k + 2 ≤ i → (N.node i).isGate = true

theorem Shape.add {k : Nat} {N : Ntk} (h : Shape k N) {x : Node} (hx : x.isGate = true)
    (hf : ∀ f ∈ x.fanins, f < N.size) : Shape k (N.add x).1 := by
  refine ⟨?_, ?_, ?_⟩
  · obtain ⟨⟨l, h1⟩, h2⟩ := h.ext
    refine ⟨⟨l ++ [x], ?_⟩, rfl⟩
    show N.nodes ++ [x] = _
    simp only at h1
    rw [h1, List.append_assoc]
  · intro i hi f hff
    rw [Ntk.size_add] at hi
    rw [Ntk.node_add] at hff
    split at hff
    · rename_i e; subst e; exact hf f hff
    · rename_i e; exact h.fanins i (by omega) f hff
  · intro i hi hk
    rw [Ntk.size_add] at hi
    rw [Ntk.node_add]
    split
    · exact hx
    · rename_i e; exact h.gates i (by omega) hk

theorem Grow.shape {k d j : Nat} {N : Ntk} {q : List Nat} {N' : Ntk} {q' : List Nat} (h : Grow d j N q N' q')
    (hs : Shape k N) (hq : ∀ b ∈ q, b < N.size) : Shape k N' := by
  induction h with
  | nil => exact hs
  | step j N q c q0 q1 N' q' h1 h2 h3 ih =>
    have hc := hq c (h1.subset (by simp))
    refine ih (hs.add rfl (by simp [Node.fanins]; exact hc)) ?_
    intro b hb
    rw [Ntk.size_add]
    rcases List.mem_append.1 (h2.subset hb) with hb | hb
    · have := hq b (h1.subset (List.mem_cons_of_mem _ hb)); omega
    · have := List.eq_of_mem_replicate hb; omega

theorem depth_shape {k : Nat} : ∀ (j : Nat) (N : Ntk) (child : Nat) (q : List Nat), Shape k N → child < N.size →
    Shape k (depthTree j N child q).1 := by
  intro j
  induction j with
  | zero => intro N _ _ h _; exact h
  | succ j ih =>
    intro N child q h hc
    rw [depthTree]
    exact ih _ _ _ (h.add rfl (by simp [Node.fanins]; exact hc)) (by show N.size < (N.add (.buf child)).1.size; rw [Ntk.size_add]; omega)

theorem generateTree_shape {k : Nat} (ps : FanoutParams) (S : Ntk) (n : Nat) (st st' : FanoutState)
    (h : Shape k st.ntk) (hr : st.old2new n < st.ntk.size) (he : generateTree ps S n st = some st') :
    Shape k st'.ntk := by
  unfold generateTree at he
  split at he
  · cases he; exact h
  · dsimp only at he
    split at he
    · cases he; exact h
    · have one : ∀ b ∈ [st.old2new n], b < st.ntk.size := by simpa using hr
      cases hs : ps.strategy with
      | depth =>
        rw [hs] at he
        simp only [Option.map_some, Option.some.injEq] at he
        rw [← he]
        exact depth_shape _ _ _ _ h hr
      | breadth =>
        rw [hs] at he
        simp only [Option.map_eq_some_iff] at he
        obtain ⟨⟨N', q'⟩, hr, e⟩ := he
        rw [← e]
        exact (breadth_grow _ _ _ _ _ _ hr).shape h one
      | random rnd =>
        rw [hs] at he
        simp only [Option.map_eq_some_iff] at he
        obtain ⟨⟨N', q'⟩, hr, e⟩ := he
        rw [← e]
        exact (random_grow _ _ _ _ _ _ _ hr).shape h one

theorem pis_shape {k : Nat} (ps : FanoutParams) (S : Ntk) : ∀ (l : List Nat) (st st' : FanoutState) (_ : FunInv S st [])
    (_ : Shape k st.ntk) (_ : ∀ n ∈ l, n < S.size ∧ (S.node n).isGate = false)
    (_ : l.foldlM (fun st n => generateTree ps S n st) st = some st'), Shape k st'.ntk := by
  intro l
  induction l with
  | nil => intro st st' _ h _ he; simp at he; subst he; exact h
  | cons n l ih =>
    intro st st' hf h hl he
    simp only [List.foldlM_cons, Option.bind_eq_bind, Option.bind_eq_some_iff] at he
    obtain ⟨st1, h1, h2⟩ := he
    have hn := hl n (List.mem_cons_self ..)
    have a1 := generateTree_fun ps S n st st1 [] hf hn.1 (Or.inl hn.2) h1
    have b1 := generateTree_shape ps S n st st1 h (hf.map n hn.1 (Or.inl hn.2)).1 h1
    exact ih st1 st' a1.1 b1 (fun m hm => hl m (List.mem_cons_of_mem _ hm)) h2

theorem substGate_shape {k : Nat} (ps : FanoutParams) (S : Ntk) (numPis : Nat) (hS : S.WF numPis) (n : Nat)
    (st st' : FanoutState) (done : List Nat) (h : FunInv S st done) (hs : Shape k st.ntk) (hn : n < S.size)
    (hg : (S.node n).isGate = true)
    (hfi : ∀ f ∈ (S.node n).fanins, (S.node f).isGate = true → f ∈ done)
    (he : substGate ps S st n = some st') : Shape k st'.ntk := by
  unfold substGate at he
  split at he
  · cases he
  · rename_i cs hcs
    have hf2 := mapM_some_spec _ _ _ hcs
    have hxf : ((S.node n).withFanins cs).fanins = cs := Node.fanins_withFanins _ _ hf2.length_eq.symm
    refine generateTree_shape ps S n _ st' (hs.add ?_ ?_) ?_ he
    · revert hg; cases S.node n <;> simp [Node.withFanins, Node.isGate]
    · rw [hxf]
      intro c hc
      obtain ⟨f, hf, ho⟩ := forall₂_right hf2 c hc
      refine (substChild_fun h (lt_trans (hS.fanins n hn f hf) hn) ?_ ho).1
      by_cases hfg : (S.node f).isGate = true
      · exact Or.inr (hfi f hf hfg)
      · exact Or.inl (by simpa using hfg)
    · dsimp only
      rw [if_pos rfl]
      show st.ntk.size < (st.ntk.add ((S.node n).withFanins cs)).1.size
      rw [Ntk.size_add]
      omega

theorem gates_shape {k : Nat} (ps : FanoutParams) (S : Ntk) (numPis : Nat) (hS : S.WF numPis) (order : List Nat)
    (ho : TopoOrder S order) : ∀ (r l : List Nat) (st st' : FanoutState) (_ : order = l ++ r) (_ : FunInv S st l)
    (_ : Shape k st.ntk) (_ : r.foldlM (substGate ps S) st = some st'), Shape k st'.ntk := by
  intro r
  induction r with
  | nil => intro l st st' e _ h he; simp at he; subst he; exact h
  | cons n r ih =>
    intro l st st' e h hs he
    simp only [List.foldlM_cons, Option.bind_eq_bind, Option.bind_eq_some_iff] at he
    obtain ⟨st1, h1, h2⟩ := he
    have hn := ho.gates n (by rw [e]; simp)
    have hnd : n ∉ l := by
      have := ho.nodup
      rw [e] at this
      have := (List.nodup_append.1 this).2.2
      intro hm; exact this n hm n (by simp) rfl
    have a1 := substGate_fun ps S numPis hS n st st1 l h hn.1 hn.2 hnd (ho.fanins l n r e) h1
    exact ih (l ++ [n]) st1 st' (by rw [e]; simp) a1.1
      (substGate_shape ps S numPis hS n st st1 l h hs hn.1 hn.2 (ho.fanins l n r e) h1) h2

theorem initCopy_shape (k : Nat) : Shape k (Ntk.initCopy k) := by
  refine ⟨Ext.refl _, ?_, ?_⟩
  · intro i _ f hf
    rw [initCopy_node] at hf
    split_ifs at hf <;> simp [Node.fanins] at hf
  · intro i hi hk; rw [initCopy_size] at hi; omega

theorem Shape.wf {k : Nat} {N : Ntk} (h : Shape k N) (hp : ∀ p ∈ N.pos, p < N.size) : N.WF k := by
  have hnode : ∀ i < k + 2, N.node i = (Ntk.initCopy k).node i := by
    intro i hi
    exact h.ext.node i (by rw [initCopy_size]; exact hi)
  have hsz : k + 2 ≤ N.size := by
    have := h.ext.size
    rw [initCopy_size] at this
    exact this
  have hpi : ∀ i j, N.node i = .pi j → j < k ∧ i = j + 2 := by
    intro i j e
    by_cases h1 : i < k + 2
    · rw [hnode i h1, initCopy_node] at e
      split_ifs at e
      cases e
      omega
    · by_cases h2 : i < N.size
      · have := h.gates i h2 (by omega)
        rw [e] at this; cases this
      · rw [Ntk.node_ge _ _ (by omega)] at e; cases e
  refine ⟨?_, h.fanins, ?_, ?_, ?_, hp⟩
  · obtain ⟨⟨l, e⟩, -⟩ := h.ext
    have e' : N.nodes = Node.const false :: Node.const true :: ((List.range k).map .pi ++ l) := by
      simpa [Ntk.initCopy] using e
    refine ⟨_, e', ?_⟩
    intro x hx
    rcases List.mem_append.1 hx with hx | hx
    · simp at hx; obtain ⟨j, _, rfl⟩ := hx; rfl
    · obtain ⟨j, hj, rfl⟩ := List.mem_iff_getElem.1 hx
      have hj2 : k + 2 + j < N.size := by
        unfold Ntk.size; rw [e']; simp; omega
      have := h.gates (k + 2 + j) hj2 (by omega)
      have hn : N.node (k + 2 + j) = l[j] := by
        unfold Ntk.node
        rw [e', show k + 2 + j = (k + j) + 1 + 1 by omega, List.getD_eq_getElem?_getD]
        simp [List.getElem?_append, hj]
      rw [hn, Node.isGate_eq] at this
      simp at this
      exact this.1
  · intro i hi
    cases hx : N.node i with
    | pi j => exact ⟨j, (hpi i j hx).1, rfl⟩
    | const b => rw [hx] at hi; cases hi
    | buf f => rw [hx] at hi; cases hi
    | gate fn fs => rw [hx] at hi; cases hi
  · intro j hj
    refine ⟨j + 2, by omega, ?_⟩
    rw [hnode _ (by omega), initCopy_node, if_neg (by omega), if_neg (by omega), if_pos (by omega)]
    rfl
  · intro i i' j e e'
    have := hpi i j e
    have := hpi i' j e'
    omega

theorem fanoutSubstitution_wf {ps : FanoutParams} {S : Ntk} {numPis : Nat} {order : List Nat} {D : Ntk}
    (hS : S.WF numPis) (ho : TopoOrder S order)
    (h : fanoutSubstitution ps S numPis order = some D) : D.WF numPis ∧ D.pos.length = S.pos.length := by
  obtain ⟨st1, st2, st3, h1, h2, h3, rfl⟩ := fanoutSubstitution_phases h
  have hpi : ∀ n ∈ S.pis, n < S.size ∧ (S.node n).isGate = false := by
    intro n hn
    rw [pis_spec] at hn
    exact ⟨hn.1, by rw [Node.isGate_eq, hn.2]; simp⟩
  have a1 := foldlM_pis_fun ps S S.pis _ st1 (init_fun S numPis hS) hpi h1
  have s1 := pis_shape ps S S.pis _ st1 (init_fun S numPis hS) (initCopy_shape numPis) hpi h1
  have a2 := foldlM_gates_fun ps S numPis hS order ho order [] st1 st2 (by simp) a1.1 h2
  have s2 := gates_shape ps S numPis hS order ho order [] st1 st2 (by simp) a1.1 s1 h2
  obtain ⟨b1, cs, b2, b3, b4⟩ := foldlM_pos_fun ps S order S.pos st2 st3 a2.1 (gate_of_fanin_wf S order ho numPis hS) h3
  have hp : st2.ntk.pos = [] := by rw [a2.2.pos, a1.2.pos]; rfl
  have hsz : st3.ntk.size = st2.ntk.size := by unfold Ntk.size; rw [b1]
  have hnd : st3.ntk.node = st2.ntk.node := by funext i; unfold Ntk.node; rw [b1]
  have s3 : Shape numPis st3.ntk := by
    refine ⟨by rw [b1]; exact s2.ext, ?_, ?_⟩
    · rw [hsz, hnd]; exact s2.fanins
    · rw [hsz, hnd]; exact s2.gates
  refine ⟨s3.wf ?_, ?_⟩
  · rw [b2, hp, hsz]; simpa using b3
  · rw [b2, hp]
    have := congrArg List.length (b4 (fun _ => false))
    simpa using this

end Verif.Networks
