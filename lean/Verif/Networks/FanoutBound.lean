import Verif.Networks.FanoutCap

/-! Fanout bounds and totality of fanout substitution. -/
namespace Verif.Networks

/-- Invariant of the fanout sizes. -/
structure BoundInv (ps : FanoutParams) (S : Ntk) (st : FanoutState) (done : List Nat) : Prop where
  cover : ∀ i < st.ntk.size, (∃ n, Tr S done n ∧ st.old2new n = i) ∨
    ((∃ f, st.ntk.node i = .buf f) ∧ st.ntk.fanoutSize i ≤ ps.degree)
  kind : ∀ n, Tr S done n → (st.ntk.node (st.old2new n)).isBuf = (S.node n).isBuf ∧
    (st.ntk.node (st.old2new n)).isConst = (S.node n).isConst
  root : ∀ n, Tr S done n → st.avail n ≠ [] → st.ntk.fanoutSize (st.old2new n) ≤ ps.threshold

/-- How a use of `f` is served. -/
def Choice (ps : FanoutParams) (st : FanoutState) (f c : Nat) : Prop :=
  (c = st.old2new f ∧ (st.avail f = [] ∨ st.ntk.fanoutSize c < ps.threshold)) ∨
    (c ∈ st.avail f ∧ st.ntk.fanoutSize c < ps.degree)

theorem getFanout_choice {ps : FanoutParams} {st : FanoutState} {n c : Nat} (h : getFanout ps st n = some c) :
    Choice ps st n c := by
  unfold getFanout at h
  dsimp only at h
  split at h
  · split at h
    · rename_i ha; cases h; exact Or.inl ⟨rfl, Or.inl ha⟩
    · have h1 := List.mem_of_find?_eq_some h
      have h2 := List.find?_some h
      exact Or.inr ⟨h1, by simpa using h2⟩
  · rename_i hlt; cases h; exact Or.inl ⟨rfl, Or.inr (by omega)⟩

theorem substChild_choice {ps : FanoutParams} {S : Ntk} {st : FanoutState} {n c : Nat}
    (hc : ∀ n, (S.node n).isConst = true → st.avail n = []) (h : substChild ps S st n = some c) :
    Choice ps st n c := by
  unfold substChild at h
  split at h
  · rename_i hcn; cases h; exact Or.inl ⟨rfl, Or.inl (hc n hcn)⟩
  · exact getFanout_choice h

theorem Choice.own {ps : FanoutParams} {st : FanoutState} {f c : Nat} (h : Choice ps st f c) : c ∈ own st f := by
  unfold Networks.own
  rcases h with ⟨h, -⟩ | ⟨h, -⟩
  · subst h; exact Finset.mem_insert_self _ _
  · exact Finset.mem_insert_of_mem (List.mem_toFinset.2 h)

theorem forall₂_count_pos {R : Nat → Nat → Prop} {fs cs : List Nat} (h : List.Forall₂ R fs cs) (i : Nat)
    (hi : 0 < cs.count i) : ∃ f ∈ fs, R f i := by
  induction h with
  | nil => simp at hi
  | @cons f c fs cs hr _ ih =>
    by_cases e : c = i
    · subst e; exact ⟨f, List.mem_cons_self .., hr⟩
    · rw [List.count_cons_of_ne e] at hi
      obtain ⟨f', hf', hr'⟩ := ih hi
      exact ⟨f', List.mem_cons_of_mem _ hf', hr'⟩

theorem BoundInv.use {ps : FanoutParams} {S : Ntk} {st : FanoutState} {done : List Nat} {rem : Nat → Nat}
    {pend : List Nat} (hI : CapInv ps S st done rem pend) (h : BoundInv ps S st done) {fs cs : List Nat}
    (hu : List.Forall₂ (Choice ps st) fs cs) (hfs : ∀ f ∈ fs, Tr S done f)
    (hnd : ∀ f ∈ fs, (S.node f).isConst = false → fs.count f ≤ 1) (fo' : Nat → Nat)
    (hfo : ∀ i, fo' i = st.ntk.fanoutSize i + cs.count i) :
    (∀ i < st.ntk.size, (∃ n, Tr S done n ∧ st.old2new n = i) ∨
      ((∃ f, st.ntk.node i = .buf f) ∧ fo' i ≤ ps.degree)) ∧
    (∀ n, Tr S done n → st.avail n ≠ [] → fo' (st.old2new n) ≤ ps.threshold) := by
  have hu' : List.Forall₂ (fun f c => c ∈ own st f) fs cs := hu.imp (fun _ _ h => h.own)
  have hle : ∀ i f, 0 < cs.count i → f ∈ fs → Choice ps st f i → (S.node f).isConst = false → cs.count i ≤ 1 := by
    intro i f _ hf hch hc
    refine le_trans ?_ (hnd f hf hc)
    refine le_trans ?_ (uses_le hI.disj hu' hfs f (hfs f hf))
    exact Finset.single_le_sum (f := fun x => cs.count x) (fun _ _ => Nat.zero_le _) hch.own
  refine ⟨?_, ?_⟩
  · intro i hi
    rcases h.cover i hi with h1 | ⟨h1, h2⟩
    · exact Or.inl h1
    · by_cases hz : cs.count i = 0
      · exact Or.inr ⟨h1, by rw [hfo, hz]; omega⟩
      · obtain ⟨f, hf, hch⟩ := forall₂_count_pos hu i (by omega)
        have hle' := hle i f (by omega) hf hch
        rcases hch with ⟨e, -⟩ | ⟨hm, hlt⟩
        · exact Or.inl ⟨f, hfs f hf, e.symm⟩
        · have hc : (S.node f).isConst = false := by
            by_contra hc
            rw [hI.consts f (by simpa using hc)] at hm
            simp at hm
          have := hle' hc
          exact Or.inr ⟨h1, by rw [hfo]; omega⟩
  · intro n hn ha
    by_cases hz : cs.count (st.old2new n) = 0
    · rw [hfo, hz]; exact h.root n hn ha
    · obtain ⟨f, hf, hch⟩ := forall₂_count_pos hu _ (Nat.pos_of_ne_zero hz)
      have e : f = n := hI.disj f n _ (hfs f hf) hn hch.own (by simp [own])
      subst e
      have hc : (S.node f).isConst = false := by
        by_contra hc
        exact ha (hI.consts f (by simpa using hc))
      have h1 := hle _ f (Nat.pos_of_ne_zero hz) hf hch hc
      rcases hch with ⟨-, h2 | h2⟩ | ⟨h2, -⟩
      · exact absurd h2 ha
      · rw [hfo]; omega
      · exact absurd h2 (hI.rootNot f hn)

theorem BoundInv.tree {ps : FanoutParams} (ht : 1 ≤ ps.threshold) {S : Ntk} {st st' : FanoutState}
    {done : List Nat} {rem : Nat → Nat} {n : Nat} {pend : List Nat} (hI : CapInv ps S st done rem (n :: pend))
    (hn : Tr S done n) (h : BoundInv ps S st done) {k : Nat} {q : List Nat}
    (hs : TreeSpec ps.degree (k + 1) st.ntk (st.old2new n) st'.ntk q) (ho : st'.old2new = st.old2new)
    (ha : st'.avail = fun m => if m = n then q else st.avail m) : BoundInv ps S st' done := by
  have hlt : ∀ m, Tr S done m → st.old2new m < st.ntk.size := fun m hm => hI.lt m hm _ (by simp [own])
  refine ⟨?_, ?_, ?_⟩
  · intro i hi
    rw [ho]
    by_cases hi2 : i < st.ntk.size
    · by_cases e : i = st.old2new n
      · exact Or.inl ⟨n, hn, e.symm⟩
      · rw [hs.ext.node i hi2, hs.old i hi2, if_neg e]
        exact h.cover i hi2
    · have := hs.new i (by omega) hi
      obtain ⟨⟨f, -, hf⟩, h2⟩ := this
      exact Or.inr ⟨⟨f, hf⟩, h2⟩
  · intro m hm
    rw [ho, hs.ext.node _ (hlt m hm)]
    exact h.kind m hm
  · intro m hm hav
    rw [ho, hs.old _ (hlt m hm)]
    by_cases e : m = n
    · subst e
      rw [(hI.pend m (List.mem_cons_self ..)).2, if_pos rfl]; omega
    · rw [ha] at hav
      dsimp only at hav
      rw [if_neg e] at hav
      rw [if_neg]
      · exact h.root m hm hav
      · intro e2
        exact e (hI.disj m n (st.old2new m) hm hn (by simp [own]) (by rw [e2]; simp [own]))

/-! ## The three phases -/

/-- References to `n` from the gates still to be visited. -/
def remG (S : Ntk) (r : List Nat) (n : Nat) : Nat := (r.map (fun g => (S.node g).fanins.count n)).sum

theorem remG_cons (S : Ntk) (g : Nat) (r : List Nat) (n : Nat) :
    remG S (g :: r) n = (S.node g).fanins.count n + remG S r n := by simp [remG]

theorem nodes_sum_eq (S : Ntk) (F : Node → Nat) :
    (S.nodes.map F).sum = ∑ i ∈ Finset.range S.size, F (S.node i) := by
  obtain ⟨l, ps⟩ := S
  induction l using List.reverseRecOn with
  | nil => simp [Ntk.size]
  | append_singleton l x ih =>
    have e : (⟨l ++ [x], ps⟩ : Ntk) = ((⟨l, ps⟩ : Ntk).add x).1 := rfl
    rw [e, Ntk.size_add, Finset.sum_range_succ, Ntk.node_add, if_pos rfl]
    show ((l ++ [x]).map F).sum = _
    rw [List.map_append, List.sum_append]
    simp only at ih
    rw [ih]
    simp only [List.map_cons, List.map_nil, List.sum_cons, List.sum_nil, Nat.add_zero]
    congr 1
    apply Finset.sum_congr rfl
    intro i hi
    rw [Finset.mem_range] at hi
    rw [Ntk.node_add, if_neg (by omega)]

theorem rem_le (S : Ntk) (order : List Nat) (ho : TopoOrder S order) (n : Nat) :
    remG S order n + S.pos.count n ≤ S.fanoutSize n := by
  unfold Ntk.fanoutSize
  apply Nat.add_le_add_right
  rw [nodes_sum_eq]
  unfold remG
  rw [← List.sum_toFinset _ ho.nodup]
  apply Finset.sum_le_sum_of_subset
  intro g hg
  rw [List.mem_toFinset] at hg
  rw [Finset.mem_range]
  exact (ho.gates g hg).1

theorem pis_phase {ps : FanoutParams} (hd : 2 ≤ ps.degree) {S : Ntk} {rem : Nat → Nat}
    (hrem : ∀ n, rem n ≤ S.fanoutSize n) : ∀ (l : List Nat) (st : FanoutState) (_ : CapInv ps S st [] rem l)
    (_ : 1 ≤ ps.threshold → BoundInv ps S st []) (_ : l.Nodup) (_ : ∀ n ∈ l, n < S.size ∧ (S.node n).isPi = true),
    ∃ st', l.foldlM (fun st n => generateTree ps S n st) st = some st' ∧ CapInv ps S st' [] rem [] ∧
      (1 ≤ ps.threshold → BoundInv ps S st' []) := by
  intro l
  induction l with
  | nil => intro st h hb _ _; exact ⟨st, rfl, h, hb⟩
  | cons n l ih =>
    intro st h hb hnd hl
    have htr : ∀ m ∈ n :: l, Tr S [] m := fun m hm => ⟨(hl m hm).1, Or.inl (by rw [Node.isGate_eq, (hl m hm).2]; simp)⟩
    have hnc : (S.node n).isConst = false := by
      have := (hl n (List.mem_cons_self ..)).2
      cases hx : S.node n <;> rw [hx] at this <;> simp_all [Node.isPi, Node.isConst]
    rw [List.nodup_cons] at hnd
    obtain ⟨st1, h1, h2, h3, h4⟩ := h.tree hd (htr n (List.mem_cons_self ..)) hnd.1
      (fun m hm => htr m (List.mem_cons_of_mem _ hm)) hnc (hrem n)
    have hb1 : 1 ≤ ps.threshold → BoundInv ps S st1 [] := by
      intro ht
      rcases h4 with e | ⟨k, q, -, hs, ha⟩
      · subst e; exact hb ht
      · exact (hb ht).tree ht h (htr n (List.mem_cons_self ..)) hs h3 ha
    obtain ⟨st2, g1, g2, g3⟩ := ih st1 h2 hb1 hnd.2 (fun m hm => hl m (List.mem_cons_of_mem _ hm))
    refine ⟨st2, ?_, g2, g3⟩
    simp only [List.foldlM_cons, Option.bind_eq_bind]
    rw [h1]; exact g1

theorem mapM_total {α β : Type} (f : α → Option β) : ∀ (l : List α), (∀ x ∈ l, ∃ y, f x = some y) →
    ∃ r, l.mapM f = some r := by
  intro l
  induction l with
  | nil => intro _; exact ⟨[], rfl⟩
  | cons x l ih =>
    intro h
    obtain ⟨y, hy⟩ := h x (List.mem_cons_self ..)
    obtain ⟨r, hr⟩ := ih (fun z hz => h z (List.mem_cons_of_mem _ hz))
    exact ⟨y :: r, by simp [List.mapM_cons, hy, hr]⟩

theorem forall₂_right {α β : Type} {R : α → β → Prop} {l : List α} {r : List β} (h : List.Forall₂ R l r) (y : β)
    (hy : y ∈ r) : ∃ x ∈ l, R x y := by
  induction h with
  | nil => simp at hy
  | cons hr _ ih =>
    rcases List.mem_cons.1 hy with e | hm
    · subst e; exact ⟨_, List.mem_cons_self .., hr⟩
    · obtain ⟨x, hx, hr'⟩ := ih hm
      exact ⟨x, List.mem_cons_of_mem _ hx, hr'⟩

theorem gate_step {ps : FanoutParams} (hd : 2 ≤ ps.degree) {S : Ntk} {numPis : Nat}
    (hS : S.WF numPis) {rem rem' : Nat → Nat} (hrem : ∀ n, rem n ≤ S.fanoutSize n)
    {n : Nat} {st : FanoutState} {done : List Nat} (h : CapInv ps S st done rem []) (hn : n < S.size)
    (hg : (S.node n).isGate = true) (hnd : n ∉ done)
    (hfi : ∀ f ∈ (S.node n).fanins, (S.node f).isGate = true → f ∈ done)
    (hrr : ∀ m, rem m = (S.node n).fanins.count m + rem' m) :
    ∃ st', substGate ps S st n = some st' ∧ CapInv ps S st' (done ++ [n]) rem' [] ∧
      (1 ≤ ps.threshold → BoundInv ps S st done →
        (∀ f ∈ (S.node n).fanins, (S.node f).isConst = false → (S.node n).fanins.count f ≤ 1) →
        BoundInv ps S st' (done ++ [n])) := by
  set fs := (S.node n).fanins with hfsdef
  have hfan : ∀ f ∈ fs, Tr S done f := by
    intro f hf
    refine ⟨lt_trans (hS.fanins n hn f hf) hn, ?_⟩
    by_cases hfg : (S.node f).isGate = true
    · exact Or.inr (hfi f hf hfg)
    · exact Or.inl (by simpa using hfg)
  obtain ⟨cs, hcs⟩ := mapM_total (substChild ps S st) fs (by
    intro f hf
    unfold substChild
    split
    · exact ⟨_, rfl⟩
    · refine getFanout_total h (hfan f hf) ?_
      have := List.count_pos_iff.2 hf
      have := hrr f
      omega)
  have hf2 := mapM_some_spec _ _ _ hcs
  have hch : List.Forall₂ (Choice ps st) fs cs := hf2.imp (fun _ _ hx => substChild_choice h.consts hx)
  have hch' : List.Forall₂ (fun f c => c ∈ own st f) fs cs := hch.imp (fun _ _ hx => hx.own)
  have hlen := hf2.length_eq
  set x := (S.node n).withFanins cs with hx
  have hxf : x.fanins = cs := Node.fanins_withFanins _ _ hlen.symm
  have hcl : ∀ c ∈ cs, c < st.ntk.size := by
    intro c hc
    obtain ⟨f, hf, ho⟩ := forall₂_right hch' c hc
    exact h.lt f (hfan f hf) c ho
  set N1 := (st.ntk.add x).1 with hN1
  have hN1s : N1.size = st.ntk.size + 1 := Ntk.size_add _ _
  have hN1c : N1.Closed := h.closed.add x (by rw [hxf]; exact hcl)
  have hN1fo : ∀ i, N1.fanoutSize i = st.ntk.fanoutSize i + cs.count i := by
    intro i; rw [hN1, Ntk.fanoutSize_add, hxf]
  have I1 : CapInv ps S ⟨N1, st.old2new, st.avail⟩ done rem' [] :=
    h.use hch' hfan N1 hN1c (by omega) hN1fo (fun m => by have := hrr m; omega) (by simp)
  have hf0 : N1.fanoutSize st.ntk.size = 0 := by
    rw [hN1fo, h.closed _ (le_refl _), List.count_eq_zero_of_not_mem]
    intro hm; have := hcl _ hm; omega
  have I2 := I1.newGate (n := n) (i := st.ntk.size) hn hg hnd (by dsimp only; omega)
    (fun m hm hmem => by have : st.ntk.size < st.ntk.size := h.lt m hm _ hmem; omega) hf0
    (by have := hrr n; have := hrem n; omega)
  have hntr : ¬ Tr S done n := by
    rintro ⟨_, b | b⟩
    · rw [hg] at b; cases b
    · exact hnd b
  have htrn : Tr S (done ++ [n]) n := ⟨hn, Or.inr (by simp)⟩
  have hncst : (S.node n).isConst = false := by
    rw [Node.isGate_eq] at hg; simp at hg; exact hg.1
  obtain ⟨st', g1, g2, g3, g4⟩ := I2.tree hd htrn (by simp) (by simp) hncst
    (by have := hrr n; have := hrem n; omega)
  refine ⟨st', ?_, g2, ?_⟩
  · unfold substGate
    rw [← hfsdef, hcs]
    exact g1
  · intro ht hb hfn
    obtain ⟨u1, u2⟩ := hb.use h hch hfan hfn N1.fanoutSize hN1fo
    have B2 : BoundInv ps S ⟨N1, fun m => if m = n then st.ntk.size else st.old2new m, st.avail⟩ (done ++ [n]) := by
      have hin : ∀ m, Tr S done m → Tr S (done ++ [n]) m ∧ m ≠ n := by
        intro m hm
        refine ⟨⟨hm.1, hm.2.imp id (fun hx => by simp [hx])⟩, ?_⟩
        intro e; subst e; exact hntr hm
      have hout : ∀ m, Tr S (done ++ [n]) m → m ≠ n → Tr S done m := by
        intro m hm e
        exact ⟨hm.1, hm.2.imp id (fun hx => by simpa [e] using hx)⟩
      refine ⟨?_, ?_, ?_⟩
      · intro i hi
        dsimp only at hi ⊢
        by_cases e : i = st.ntk.size
        · exact Or.inl ⟨n, htrn, by rw [if_pos rfl]; exact e.symm⟩
        · rcases u1 i (by omega) with ⟨m, hm, hmi⟩ | ⟨⟨f, hf⟩, h2⟩
          · exact Or.inl ⟨m, (hin m hm).1, by rw [if_neg (hin m hm).2]; exact hmi⟩
          · refine Or.inr ⟨⟨f, ?_⟩, h2⟩
            rw [hN1, Ntk.node_add, if_neg e]; exact hf
      · intro m hm
        dsimp only
        by_cases e : m = n
        · subst e
          rw [if_pos rfl, hN1, Ntk.node_add, if_pos rfl, hx, Node.withFanins_isBuf, Node.withFanins_isConst]
          exact ⟨rfl, rfl⟩
        · have hm' := hout m hm e
          have hlt : st.old2new m < st.ntk.size := h.lt m hm' _ (by simp [own])
          rw [if_neg e, hN1, Ntk.node_add, if_neg (by omega)]
          exact hb.kind m hm'
      · intro m hm ha
        dsimp only at ha ⊢
        by_cases e : m = n
        · subst e; exact absurd (h.empty m hntr) ha
        · rw [if_neg e]
          exact u2 m (hout m hm e) ha
    rcases g4 with e | ⟨k, q, -, hs, ha⟩
    · subst e; exact B2
    · exact B2.tree ht I2 htrn hs g3 ha

theorem gates_phase {ps : FanoutParams} (hd : 2 ≤ ps.degree) {S : Ntk} {numPis : Nat}
    (hS : S.WF numPis) {order : List Nat} (ho : TopoOrder S order) (P : Nat → Nat)
    (hrem : ∀ n, remG S order n + P n ≤ S.fanoutSize n) :
    ∀ (r l : List Nat) (st : FanoutState) (_ : order = l ++ r) (_ : CapInv ps S st l (fun n => remG S r n + P n) []),
    ∃ st', r.foldlM (substGate ps S) st = some st' ∧ CapInv ps S st' order P [] ∧
      (1 ≤ ps.threshold → BoundInv ps S st l →
        (∀ n ∈ order, ∀ f ∈ (S.node n).fanins, (S.node f).isConst = false → (S.node n).fanins.count f ≤ 1) →
        BoundInv ps S st' order) := by
  intro r
  induction r with
  | nil =>
    intro l st e h
    simp at e; subst e
    refine ⟨st, rfl, ?_, fun _ hb _ => hb⟩
    simpa [remG] using h
  | cons n r ih =>
    intro l st e h
    have hn := ho.gates n (by rw [e]; simp)
    have hnd : n ∉ l := by
      have := ho.nodup
      rw [e] at this
      have := (List.nodup_append.1 this).2.2
      intro hm; exact this n hm n (by simp) rfl
    have hre : ∀ m, remG S order m = remG S l m + ((S.node n).fanins.count m + remG S r m) := by
      intro m
      rw [e]; unfold remG; simp
    obtain ⟨st1, h1, h2, h3⟩ := gate_step hd hS (rem := fun m => remG S (n :: r) m + P m)
      (rem' := fun m => remG S r m + P m)
      (by intro m; rw [remG_cons]; have := hrem m; have := hre m; omega) h hn.1 hn.2 hnd (ho.fanins l n r e)
      (by intro m; rw [remG_cons]; omega)
    obtain ⟨st2, g1, g2, g3⟩ := ih (l ++ [n]) st1 (by rw [e]; simp) h2
    refine ⟨st2, ?_, g2, fun ht hb hf => g3 ht (h3 ht hb (hf n (by rw [e]; simp))) hf⟩
    simp only [List.foldlM_cons, Option.bind_eq_bind]
    rw [h1]; exact g1

theorem pos_phase {ps : FanoutParams} {S : Ntk} {order : List Nat} : ∀ (l : List Nat) (st : FanoutState)
    (_ : CapInv ps S st order (fun n => l.count n) []) (_ : ∀ p ∈ l, Tr S order p),
    ∃ st', l.foldlM (substPo ps) st = some st' ∧ CapInv ps S st' order (fun _ => 0) [] ∧
      (BoundInv ps S st order → BoundInv ps S st' order) := by
  intro l
  induction l with
  | nil => intro st h _; exact ⟨st, rfl, by simpa using h, id⟩
  | cons p l ih =>
    intro st h hl
    have hp := hl p (List.mem_cons_self ..)
    obtain ⟨c, hc⟩ := getFanout_total h hp (by simp)
    have hch := getFanout_choice hc
    have hclt : c < st.ntk.size := h.lt p hp c hch.own
    have hcl : (st.ntk.createPo c).Closed := by
      intro i hi
      rw [Ntk.fanoutSize_createPo, h.closed i hi, if_neg (by have : st.ntk.size ≤ i := hi; omega)]
    have hfo : ∀ i, (st.ntk.createPo c).fanoutSize i = st.ntk.fanoutSize i + [c].count i := by
      intro i
      rw [Ntk.fanoutSize_createPo]
      by_cases e : i = c
      · subst e; simp
      · rw [if_neg e, List.count_eq_zero_of_not_mem (by simpa using e)]
    have hu : List.Forall₂ (Choice ps st) [p] [c] := .cons hch .nil
    have I1 : CapInv ps S ⟨st.ntk.createPo c, st.old2new, st.avail⟩ order (fun n => l.count n) [] :=
      h.use (hu.imp (fun _ _ hx => hx.own)) (by simpa using hp) _ hcl (le_refl _) hfo
        (by
          intro n
          by_cases e : p = n
          · subst e; simp
          · rw [List.count_cons_of_ne e, List.count_cons_of_ne e, List.count_nil]; omega) (by simp)
    obtain ⟨st2, g1, g2, g3⟩ := ih _ I1 (fun q hq => hl q (List.mem_cons_of_mem _ hq))
    refine ⟨st2, ?_, g2, fun hb => g3 ?_⟩
    · simp only [List.foldlM_cons, Option.bind_eq_bind]
      unfold substPo at g1 ⊢
      rw [hc]; exact g1
    · obtain ⟨u1, u2⟩ := hb.use h hu (by simpa using hp) (by
        intro f hf _; simp at hf; subst hf; simp) _ hfo
      exact ⟨u1, hb.kind, u2⟩

/-! ## The initial state -/

theorem initCopy_node (k i : Nat) : (Ntk.initCopy k).node i =
    if i = 0 then .const false else if i = 1 then .const true else if i < k + 2 then .pi (i - 2) else .const false := by
  unfold Ntk.node Ntk.initCopy
  rw [List.getD_eq_getElem?_getD]
  rcases i with _ | _ | i
  · rfl
  · rfl
  · simp only [List.cons_append, List.nil_append, List.getElem?_cons_succ, List.getElem?_map]
    by_cases h : i < k
    · rw [List.getElem?_range h, if_neg (by omega), if_neg (by omega), if_pos (by omega)]; rfl
    · rw [List.getElem?_eq_none (by simpa using by omega), if_neg (by omega), if_neg (by omega), if_neg (by omega)]; rfl

theorem initCopy_size (k : Nat) : (Ntk.initCopy k).size = k + 2 := by simp [Ntk.size, Ntk.initCopy]

theorem initCopy_fo (k i : Nat) : (Ntk.initCopy k).fanoutSize i = 0 := by
  unfold Ntk.fanoutSize
  rw [nodes_sum_eq, Finset.sum_eq_zero]
  · simp [Ntk.initCopy]
  · intro j _
    rw [initCopy_node]
    split_ifs <;> simp [Node.fanins]

theorem wf_const_index {S : Ntk} {k : Nat} (hS : S.WF k) :
    S.node 0 = .const false ∧ S.node 1 = .const true ∧ 2 ≤ S.size ∧
      ∀ i < S.size, 2 ≤ i → (S.node i).isConst = false := by
  obtain ⟨l, h1, h2⟩ := hS.consts
  refine ⟨?_, ?_, ?_, ?_⟩
  · unfold Ntk.node; rw [h1]; rfl
  · unfold Ntk.node; rw [h1]; rfl
  · unfold Ntk.size; rw [h1]; simp
  · intro i hi h2i
    obtain ⟨j, rfl⟩ := Nat.exists_eq_add_of_le h2i
    unfold Ntk.node
    unfold Ntk.size at hi
    rw [h1] at hi ⊢
    simp at hi
    rw [Nat.add_comm 2 j, List.getD_eq_getElem?_getD]
    simp only [List.getElem?_cons_succ]
    rw [List.getElem?_eq_getElem (by omega)]
    exact h2 _ (List.getElem_mem _)

theorem initMap_spec {S : Ntk} {k : Nat} (hS : S.WF k) (n : Nat) (hn : Tr S [] n) :
    S.initMap n < k + 2 ∧ (S.node n).isConst = ((Ntk.initCopy k).node (S.initMap n)).isConst ∧
      ((n < 2 ∧ S.initMap n = n) ∨ (∃ j < k, S.node n = .pi j ∧ S.initMap n = 2 + j)) := by
  have hg : (S.node n).isGate = false := hn.2.resolve_right (by simp)
  obtain ⟨c0, c1, c2, c3⟩ := wf_const_index hS
  unfold Ntk.initMap
  cases hx : S.node n with
  | const b =>
    have hlt : n < 2 := by
      by_contra hge
      have := c3 n hn.1 (by omega)
      rw [hx] at this; cases this
    have : n = 0 ∨ n = 1 := by omega
    rcases this with e | e
    · subst e; rw [c0] at hx; cases hx
      exact ⟨by simp, by simp [initCopy_node, Node.isConst], Or.inl ⟨by omega, by simp⟩⟩
    · subst e; rw [c1] at hx; cases hx
      exact ⟨by simp, by simp [initCopy_node, Node.isConst], Or.inl ⟨by omega, by simp⟩⟩
  | pi j =>
    obtain ⟨j', hj', e⟩ := hS.pis n (by rw [hx]; rfl)
    rw [hx] at e; cases e
    dsimp only
    refine ⟨by omega, ?_, Or.inr ⟨j, hj', rfl, rfl⟩⟩
    rw [initCopy_node, if_neg (by omega), if_neg (by omega), if_pos (by omega)]; rfl
  | buf f => rw [hx] at hg; cases hg
  | gate fn fs => rw [hx] at hg; cases hg

theorem init_cap {ps : FanoutParams} {S : Ntk} {k : Nat} (hS : S.WF k) {rem : Nat → Nat}
    (hrem : ∀ n, rem n ≤ S.fanoutSize n) :
    CapInv ps S ⟨Ntk.initCopy k, S.initMap, fun _ => []⟩ [] rem S.pis := by
  have hown : ∀ n x, x ∈ own ⟨Ntk.initCopy k, S.initMap, fun _ => []⟩ n ↔ x = S.initMap n := by
    intro n x; simp [own]
  refine ⟨fun i _ => initCopy_fo k i, ?_, ?_, ?_, fun _ _ => rfl, fun _ _ => rfl, ?_, ?_, ?_, ?_⟩
  · intro n hn x hx
    rw [hown] at hx
    subst hx
    dsimp only
    rw [initCopy_size]
    exact (initMap_spec hS n hn).1
  · intro n m x hn hm hx hy
    rw [hown] at hx hy
    have h1 := (initMap_spec hS n hn).2.2
    have h2 := (initMap_spec hS m hm).2.2
    rcases h1 with ⟨a, b⟩ | ⟨j, hj, e1, e2⟩ <;> rcases h2 with ⟨a', b'⟩ | ⟨j', hj', e1', e2'⟩
    · omega
    · omega
    · omega
    · have : j = j' := by omega
      subst this
      exact hS.pisInj n m j e1 e1'
  · intro n _; simp
  · intro n _ _; dsimp only; rw [initCopy_fo]; have := hrem n; omega
  · intro n hn hp _ hc
    exfalso
    apply hp
    rw [pis_spec]
    refine ⟨hn.1, ?_⟩
    have hg : (S.node n).isGate = false := hn.2.resolve_right (by simp)
    rw [Node.isGate_eq, hc] at hg
    simpa using hg
  · intro n _ h; exact absurd rfl h
  · intro n _; exact ⟨rfl, initCopy_fo _ _⟩

theorem init_bound {ps : FanoutParams} {S : Ntk} {k : Nat} (hS : S.WF k) :
    BoundInv ps S ⟨Ntk.initCopy k, S.initMap, fun _ => []⟩ [] := by
  obtain ⟨c0, c1, c2, c3⟩ := wf_const_index hS
  refine ⟨?_, ?_, fun n _ h => absurd rfl h⟩
  · intro i hi
    dsimp only at hi
    rw [initCopy_size] at hi
    left
    rcases i with _ | _ | i
    · exact ⟨0, ⟨by omega, Or.inl (by rw [c0]; rfl)⟩, by simp [Ntk.initMap, c0]⟩
    · exact ⟨1, ⟨by omega, Or.inl (by rw [c1]; rfl)⟩, by simp [Ntk.initMap, c1]⟩
    · obtain ⟨j, hj, e⟩ := hS.pisAll i (by omega)
      exact ⟨j, ⟨hj, Or.inl (by rw [e]; rfl)⟩, by simp [Ntk.initMap, e]; omega⟩
  · intro n hn
    obtain ⟨h1, h2, h3⟩ := initMap_spec hS n hn
    dsimp only
    refine ⟨?_, h2.symm⟩
    rw [initCopy_node]
    rcases h3 with ⟨a, b⟩ | ⟨j, hj, e1, e2⟩
    · rw [b]
      have : n = 0 ∨ n = 1 := by omega
      rcases this with e | e <;> subst e
      · rw [c0]; rfl
      · rw [c1]; rfl
    · rw [e1, if_neg (by omega), if_neg (by omega), if_pos (by omega)]; rfl

theorem pis_nodup (S : Ntk) : S.pis.Nodup := List.Nodup.filter _ List.nodup_range

/-- The whole transformation. -/
theorem fanoutSubstitution_main {ps : FanoutParams} (hd : 2 ≤ ps.degree) {S : Ntk} {k : Nat}
    (hS : S.WF k) {order : List Nat} (ho : TopoOrder S order) :
    ∃ st, fanoutSubstitution ps S k order = some st.ntk ∧ CapInv ps S st order (fun _ => 0) [] ∧
      (1 ≤ ps.threshold →
        (∀ n ∈ order, ∀ f ∈ (S.node n).fanins, (S.node f).isConst = false → (S.node n).fanins.count f ≤ 1) →
        BoundInv ps S st order) := by
  have hrem := rem_le S order ho
  obtain ⟨st1, a1, a2, a3⟩ := pis_phase (ps := ps) hd hrem S.pis _ (init_cap hS hrem) (fun _ => init_bound hS) (pis_nodup S)
    (fun n hn => (pis_spec S n).1 hn)
  obtain ⟨st2, b1, b2, b3⟩ := gates_phase hd hS ho (fun n => S.pos.count n) hrem order [] st1 (by simp) a2
  obtain ⟨st3, c1, c2, c3⟩ := pos_phase S.pos st2 b2 (gate_of_fanin_wf S order ho k hS)
  refine ⟨st3, ?_, c2, fun ht hf => c3 (b3 ht (a3 ht) hf)⟩
  unfold fanoutSubstitution
  dsimp only
  rw [a1]
  dsimp only
  rw [b1]
  dsimp only
  rw [c1]

end Verif.Networks
