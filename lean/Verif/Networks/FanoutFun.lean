import Verif.Networks.Lemmas

/-! Fanout substitution preserves values. -/
namespace Verif.Networks

theorem Node.isGate_eq (x : Node) : x.isGate = (!x.isConst && !x.isPi) := by cases x <;> rfl

/-- What the transformation maintains: every translated node and every available buffer computes what
the source node computes. -/
structure FunInv (S : Ntk) (st : FanoutState) (done : List Nat) : Prop where
  map : ∀ n < S.size, ((S.node n).isGate = false ∨ n ∈ done) →
    st.old2new n < st.ntk.size ∧ ∀ a, st.ntk.value a (st.old2new n) = S.value a n
  avail : ∀ n, ∀ b ∈ st.avail n, b < st.ntk.size ∧ ∀ a, st.ntk.value a b = S.value a n

theorem FunInv.ext {S : Ntk} {st st' : FanoutState} {done : List Nat} (h : FunInv S st done)
    (hx : Ext st.ntk st'.ntk) (ho : st'.old2new = st.old2new)
    (ha : ∀ n, ∀ b ∈ st'.avail n, b ∈ st.avail n ∨ (b < st'.ntk.size ∧ ∀ a, st'.ntk.value a b = S.value a n)) :
    FunInv S st' done := by
  refine ⟨?_, ?_⟩
  · intro n hn hd
    have := h.map n hn hd
    rw [ho]
    exact ⟨lt_of_lt_of_le this.1 hx.size, fun a => (hx.value a _ this.1).trans (this.2 a)⟩
  · intro n b hb
    rcases ha n b hb with hb | hb
    · have := h.avail n b hb
      exact ⟨lt_of_lt_of_le this.1 hx.size, fun a => (hx.value a _ this.1).trans (this.2 a)⟩
    · exact hb

theorem generateTree_fun (ps : FanoutParams) (S : Ntk) (n : Nat) (st st' : FanoutState) (done : List Nat)
    (h : FunInv S st done) (hn : n < S.size) (hd : (S.node n).isGate = false ∨ n ∈ done)
    (he : generateTree ps S n st = some st') :
    FunInv S st' done ∧ Ext st.ntk st'.ntk ∧ st'.old2new = st.old2new := by
  unfold generateTree at he
  split at he
  · cases he; exact ⟨h, Ext.refl _, rfl⟩
  · dsimp only at he
    split at he
    · cases he; exact ⟨h, Ext.refl _, rfl⟩
    · have hm := h.map n hn hd
      have key : ∀ (r : Ntk × List Nat), (Ext st.ntk r.1 ∧ ∀ b ∈ r.2, b < r.1.size ∧ ∀ a, r.1.value a b = S.value a n) →
          (⟨r.1, st.old2new, fun m => if m = n then r.2 else st.avail m⟩ : FanoutState) = st' →
          FunInv S st' done ∧ Ext st.ntk st'.ntk ∧ st'.old2new = st.old2new := by
        intro r hr e
        subst e
        refine ⟨h.ext hr.1 rfl ?_, hr.1, rfl⟩
        intro m b hb
        dsimp only at hb
        split at hb
        · rename_i e; subst e; exact Or.inr (hr.2 b hb)
        · exact Or.inl hb
      have one : ∀ b ∈ [st.old2new n], b < st.ntk.size ∧ ∀ a, st.ntk.value a b = S.value a n := by
        intro b hb; simp at hb; subst hb; exact hm
      cases hs : ps.strategy with
      | depth =>
        rw [hs] at he
        simp only [Option.map_some, Option.some.injEq] at he
        exact key _ (depth_fun (fun a => S.value a n) _ _ _ [] hm.1 hm.2 (by simp)) he
      | breadth =>
        rw [hs] at he
        simp only [Option.map_eq_some_iff] at he
        obtain ⟨⟨N', q'⟩, hr, e⟩ := he
        exact key (N', q') ((breadth_grow _ _ _ _ _ _ hr).fun (fun a => S.value a n) one) e
      | random rnd =>
        rw [hs] at he
        simp only [Option.map_eq_some_iff] at he
        obtain ⟨⟨N', q'⟩, hr, e⟩ := he
        exact key (N', q') ((random_grow _ _ _ _ _ _ _ hr).fun (fun a => S.value a n) one) e

theorem getFanout_mem {ps : FanoutParams} {st : FanoutState} {n c : Nat} (h : getFanout ps st n = some c) :
    c = st.old2new n ∨ c ∈ st.avail n := by
  unfold getFanout at h
  dsimp only at h
  split at h
  · split at h
    · cases h; exact Or.inl rfl
    · exact Or.inr (List.mem_of_find?_eq_some h)
  · cases h; exact Or.inl rfl

theorem substChild_fun {ps : FanoutParams} {S : Ntk} {st : FanoutState} {done : List Nat} (h : FunInv S st done)
    {f c : Nat} (hf : f < S.size) (hd : (S.node f).isGate = false ∨ f ∈ done) (he : substChild ps S st f = some c) :
    c < st.ntk.size ∧ ∀ a, st.ntk.value a c = S.value a f := by
  unfold substChild at he
  split at he
  · cases he; exact h.map f hf hd
  · rcases getFanout_mem he with e | e
    · subst e; exact h.map f hf hd
    · exact h.avail f c e

theorem mapM_some_spec {α β : Type} (f : α → Option β) : ∀ (l : List α) (r : List β), l.mapM f = some r →
    List.Forall₂ (fun x y => f x = some y) l r := by
  intro l
  induction l with
  | nil => intro r h; simp at h; subst h; exact .nil
  | cons x l ih =>
    intro r h
    simp only [List.mapM_cons, Option.pure_def, Option.bind_eq_bind, Option.bind_eq_some_iff] at h
    obtain ⟨y, hy, ys, hys, e⟩ := h
    cases e
    exact .cons hy (ih _ hys)

/-- The order prefix `l ++ [n]` extends the translated gates. -/
theorem substGate_fun (ps : FanoutParams) (S : Ntk) (numPis : Nat) (hS : S.WF numPis) (n : Nat) (st st' : FanoutState)
    (done : List Nat) (h : FunInv S st done) (hn : n < S.size) (hg : (S.node n).isGate = true)
    (hnd : n ∉ done)
    (hfi : ∀ f ∈ (S.node n).fanins, (S.node f).isGate = true → f ∈ done)
    (he : substGate ps S st n = some st') :
    FunInv S st' (done ++ [n]) ∧ st'.ntk.pos = st.ntk.pos ∧ Ext st.ntk st'.ntk := by
  unfold substGate at he
  split at he
  · cases he
  · rename_i cs hcs
    have hf2 := mapM_some_spec _ _ _ hcs
    have hfan : ∀ f ∈ (S.node n).fanins, f < S.size ∧ ((S.node f).isGate = false ∨ f ∈ done) := by
      intro f hf
      refine ⟨lt_trans (hS.fanins n hn f hf) hn, ?_⟩
      by_cases hfg : (S.node f).isGate = true
      · exact Or.inr (hfi f hf hfg)
      · exact Or.inl (by simpa using hfg)
    have hvals : ∀ a, cs.map (st.ntk.value a) = ((S.node n).fanins).map (S.value a) := by
      intro a
      clear hcs he hfi hg
      revert hf2 hfan
      generalize (S.node n).fanins = fs
      intro hf2 hfan
      induction hf2 with
      | nil => rfl
      | cons hx _ ih =>
        have := hfan _ (List.mem_cons_self ..)
        simp only [List.map_cons]
        rw [ih (fun f hf => hfan f (List.mem_cons_of_mem _ hf)), (substChild_fun h this.1 this.2 hx).2 a]
    set x := (S.node n).withFanins cs with hx
    have hvx : ∀ a, (st.ntk.add x).1.value a st.ntk.size = S.value a n := by
      intro a
      rw [Ntk.value_add, if_pos rfl, hx, Node.value_withFanins _ _ a (S.value a) _ (hvals a),
        S.value_eq hS.fanins a n hn]
    dsimp only at he
    have hinv : FunInv S ⟨(st.ntk.add x).1, fun m => if m = n then (st.ntk.add x).2 else st.old2new m, st.avail⟩
        (done ++ [n]) := by
      refine ⟨?_, ?_⟩
      · intro m hm hd
        dsimp only
        by_cases e : m = n
        · subst e
          rw [if_pos rfl]
          exact ⟨by rw [Ntk.size_add]; show st.ntk.size < _; omega, hvx⟩
        · rw [if_neg e]
          have := h.map m hm (by simpa [e] using hd)
          exact ⟨by rw [Ntk.size_add]; omega, fun a => by rw [(Ext.add _ _).value a _ this.1]; exact this.2 a⟩
      · intro m b hb
        have := h.avail m b hb
        exact ⟨by dsimp only; rw [Ntk.size_add]; omega, fun a => by
          dsimp only; rw [(Ext.add _ _).value a _ this.1]; exact this.2 a⟩
    have := generateTree_fun ps S n _ st' (done ++ [n]) hinv hn (Or.inr (by simp)) he
    have hext : Ext st.ntk st'.ntk := (Ext.add _ _).trans this.2.1
    exact ⟨this.1, hext.pos, hext⟩

theorem init_fun (S : Ntk) (numPis : Nat) (hS : S.WF numPis) :
    FunInv S ⟨Ntk.initCopy numPis, S.initMap, fun _ => []⟩ [] := by
  refine ⟨?_, by simp⟩
  have hnode : ∀ i < (Ntk.initCopy numPis).size, ∀ f ∈ ((Ntk.initCopy numPis).node i).fanins, f < i := by
    intro i _ f hf
    exfalso
    have : ((Ntk.initCopy numPis).node i).fanins = [] := by
      unfold Ntk.node Ntk.initCopy
      rw [List.getD_eq_getElem?_getD]
      rcases i with _ | _ | i
      · rfl
      · rfl
      · simp only [List.cons_append, List.nil_append, List.getElem?_cons_succ, List.getElem?_map]
        cases (List.range numPis)[i]? <;> rfl
    rw [this] at hf; simp at hf
  have hsz : (Ntk.initCopy numPis).size = numPis + 2 := by simp [Ntk.size, Ntk.initCopy]
  intro n hn hd
  dsimp only
  simp only [List.not_mem_nil, or_false] at hd
  have hv := fun a => S.value_eq hS.fanins a n hn
  unfold Ntk.initMap
  cases hx : S.node n with
  | const b =>
    dsimp only
    refine ⟨by rw [hsz]; split <;> omega, ?_⟩
    intro a
    rw [hv, hx, Ntk.value_eq _ hnode a _ (by rw [hsz]; split <;> omega)]
    cases b <;> rfl
  | pi k =>
    obtain ⟨k', hk', e⟩ := hS.pis n (by rw [hx]; rfl)
    rw [hx] at e; cases e
    refine ⟨by rw [hsz]; dsimp only; omega, ?_⟩
    intro a
    dsimp only
    rw [hv, hx, Ntk.value_eq _ hnode a _ (by rw [hsz]; omega)]
    have : (Ntk.initCopy numPis).node (2 + k) = .pi k := by
      unfold Ntk.node Ntk.initCopy
      rw [show 2 + k = k + 1 + 1 by omega, List.getD_eq_getElem?_getD]
      simp [List.getElem?_range hk']
    rw [this]; rfl
  | buf f => rw [hx] at hd; simp [Node.isGate] at hd
  | gate fn fs => rw [hx] at hd; simp [Node.isGate] at hd

theorem foldlM_pis_fun (ps : FanoutParams) (S : Ntk) : ∀ (l : List Nat) (st st' : FanoutState) (_ : FunInv S st [])
    (_ : ∀ n ∈ l, n < S.size ∧ (S.node n).isGate = false)
    (_ : l.foldlM (fun st n => generateTree ps S n st) st = some st'),
    FunInv S st' [] ∧ Ext st.ntk st'.ntk := by
  intro l
  induction l with
  | nil => intro st st' h _ he; simp at he; subst he; exact ⟨h, Ext.refl _⟩
  | cons n l ih =>
    intro st st' h hl he
    simp only [List.foldlM_cons, Option.bind_eq_bind, Option.bind_eq_some_iff] at he
    obtain ⟨st1, h1, h2⟩ := he
    have hn := hl n (List.mem_cons_self ..)
    have a1 := generateTree_fun ps S n st st1 [] h hn.1 (Or.inl hn.2) h1
    have a2 := ih st1 st' a1.1 (fun m hm => hl m (List.mem_cons_of_mem _ hm)) h2
    exact ⟨a2.1, a1.2.1.trans a2.2⟩

theorem foldlM_gates_fun (ps : FanoutParams) (S : Ntk) (numPis : Nat) (hS : S.WF numPis) (order : List Nat)
    (ho : TopoOrder S order) : ∀ (r l : List Nat) (st st' : FanoutState) (_ : order = l ++ r) (_ : FunInv S st l)
    (_ : r.foldlM (substGate ps S) st = some st'),
    FunInv S st' order ∧ Ext st.ntk st'.ntk := by
  intro r
  induction r with
  | nil => intro l st st' e h he; simp at he e; subst he; subst e; exact ⟨h, Ext.refl _⟩
  | cons n r ih =>
    intro l st st' e h he
    simp only [List.foldlM_cons, Option.bind_eq_bind, Option.bind_eq_some_iff] at he
    obtain ⟨st1, h1, h2⟩ := he
    have hn := ho.gates n (by rw [e]; simp)
    have hnd : n ∉ l := by
      have := ho.nodup
      rw [e] at this
      have := (List.nodup_append.1 this).2.2
      intro hm; exact this n hm n (by simp) rfl
    have a1 := substGate_fun ps S numPis hS n st st1 l h hn.1 hn.2 hnd (ho.fanins l n r e) h1
    have a2 := ih (l ++ [n]) st1 st' (by rw [e]; simp) a1.1 h2
    exact ⟨a2.1, a1.2.2.trans a2.2⟩

theorem foldlM_pos_fun (ps : FanoutParams) (S : Ntk) (order : List Nat) : ∀ (l : List Nat) (st st' : FanoutState)
    (_ : FunInv S st order) (_ : ∀ p ∈ l, p < S.size ∧ ((S.node p).isGate = false ∨ p ∈ order))
    (_ : l.foldlM (substPo ps) st = some st'),
    st'.ntk.nodes = st.ntk.nodes ∧ ∃ cs : List Nat, st'.ntk.pos = st.ntk.pos ++ cs ∧
      (∀ c ∈ cs, c < st.ntk.size) ∧ ∀ a, cs.map (st.ntk.value a) = l.map (S.value a) := by
  intro l
  induction l with
  | nil => intro st st' _ _ he; simp at he; subst he; exact ⟨rfl, [], by simp, by simp, by simp⟩
  | cons p l ih =>
    intro st st' h hl he
    simp only [List.foldlM_cons, Option.bind_eq_bind, Option.bind_eq_some_iff] at he
    obtain ⟨st1, h1, h2⟩ := he
    unfold substPo at h1
    simp only [Option.map_eq_some_iff] at h1
    obtain ⟨c, hc, rfl⟩ := h1
    have hp := hl p (List.mem_cons_self ..)
    have hcv : c < st.ntk.size ∧ ∀ a, st.ntk.value a c = S.value a p := by
      rcases getFanout_mem hc with e | e
      · subst e; exact h.map p hp.1 hp.2
      · exact h.avail p c e
    have h' : FunInv S ⟨st.ntk.createPo c, st.old2new, st.avail⟩ order := ⟨h.map, h.avail⟩
    obtain ⟨a1, cs, a2, a3, a4⟩ := ih _ st' h' (fun m hm => hl m (List.mem_cons_of_mem _ hm)) h2
    refine ⟨a1, c :: cs, ?_, ?_, ?_⟩
    · rw [a2]; simp [Ntk.createPo]
    · intro x hx
      rcases List.mem_cons.1 hx with e | e
      · subst e; exact hcv.1
      · exact a3 x e
    · intro a
      have := a4 a
      simp only [List.map_cons]
      rw [hcv.2 a]
      congr 1

/-- Splitting a run of fanout substitution into its three phases. -/
theorem fanoutSubstitution_phases {ps : FanoutParams} {S : Ntk} {numPis : Nat} {order : List Nat} {D : Ntk}
    (h : fanoutSubstitution ps S numPis order = some D) : ∃ st1 st2 st3 : FanoutState,
      S.pis.foldlM (fun st n => generateTree ps S n st) ⟨Ntk.initCopy numPis, S.initMap, fun _ => []⟩ = some st1 ∧
      order.foldlM (substGate ps S) st1 = some st2 ∧ S.pos.foldlM (substPo ps) st2 = some st3 ∧ st3.ntk = D := by
  unfold fanoutSubstitution at h
  dsimp only at h
  split at h
  · cases h
  · rename_i st1 h1
    split at h
    · cases h
    · rename_i st2 h2
      split at h
      · cases h
      · rename_i st3 h3
        cases h
        exact ⟨st1, st2, st3, h1, h2, h3, rfl⟩

theorem pis_spec (S : Ntk) (n : Nat) : n ∈ S.pis ↔ n < S.size ∧ (S.node n).isPi = true := by
  unfold Ntk.pis; simp

theorem gate_of_fanin_wf (S : Ntk) (order : List Nat) (ho : TopoOrder S order) (numPis : Nat) (hS : S.WF numPis) :
    ∀ p ∈ S.pos, p < S.size ∧ ((S.node p).isGate = false ∨ p ∈ order) := by
  intro p hp
  refine ⟨hS.pos p hp, ?_⟩
  by_cases hg : (S.node p).isGate = true
  · exact Or.inr (ho.pos p hp hg)
  · exact Or.inl (by simpa using hg)

theorem fanoutSubstitution_outputs {ps : FanoutParams} {S : Ntk} {numPis : Nat} {order : List Nat} {D : Ntk}
    (hS : S.WF numPis) (ho : TopoOrder S order)
    (h : fanoutSubstitution ps S numPis order = some D) (a : Nat → Bool) : D.outputs a = S.outputs a := by
  obtain ⟨st1, st2, st3, h1, h2, h3, rfl⟩ := fanoutSubstitution_phases h
  have a1 := foldlM_pis_fun ps S S.pis _ st1 (init_fun S numPis hS) (by
    intro n hn
    rw [pis_spec] at hn
    exact ⟨hn.1, by rw [Node.isGate_eq, hn.2]; simp⟩) h1
  have a2 := foldlM_gates_fun ps S numPis hS order ho order [] st1 st2 (by simp) a1.1 h2
  obtain ⟨b1, cs, b2, b3, b4⟩ := foldlM_pos_fun ps S order S.pos st2 st3 a2.1 (gate_of_fanin_wf S order ho numPis hS) h3
  have hp : st2.ntk.pos = [] := by rw [a2.2.pos, a1.2.pos]; rfl
  unfold Ntk.outputs
  rw [b2, hp, List.nil_append]
  have : st3.ntk.value a = st2.ntk.value a := by unfold Ntk.value; rw [b1]
  rw [this, b4 a]

end Verif.Networks
