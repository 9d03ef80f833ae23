import Verif.Networks.FanoutProps

/-! Where the nodes of the result of fanout substitution come from. -/
namespace Verif.Networks

/-- A buffer over a node that is not constant, or a gate of the source over distinct nodes that are not constant. -/
def Origin (S : Ntk) (order : List Nat) (N : Ntk) (x : Node) : Prop :=
  (∃ f, x = .buf f ∧ f < N.size ∧ (N.node f).isConst = false) ∨
  ∃ n ∈ order, ∃ cs, x = (S.node n).withFanins cs ∧ cs.length = (S.node n).fanins.length ∧ cs.Nodup ∧
    ∀ c ∈ cs, c < N.size ∧ (N.node c).isConst = false

theorem Origin.ext {S : Ntk} {order : List Nat} {N N' : Ntk} {x : Node} (h : Origin S order N x) (e : Ext N N') : Origin S order N' x := by
  have key : ∀ f, f < N.size ∧ (N.node f).isConst = false → f < N'.size ∧ (N'.node f).isConst = false := by
    rintro f ⟨h1, h2⟩
    exact ⟨lt_of_lt_of_le h1 e.size, by rw [e.node f h1]; exact h2⟩
  rcases h with ⟨f, h1, h2, h3⟩ | ⟨n, hn, cs, h1, h2, h3, h4⟩
  · exact Or.inl ⟨f, h1, (key f ⟨h2, h3⟩).1, (key f ⟨h2, h3⟩).2⟩
  · exact Or.inr ⟨n, hn, cs, h1, h2, h3, fun c hc => key c (h4 c hc)⟩

/-- The nodes added between two networks. -/
def Adds (S : Ntk) (order : List Nat) (N N' : Ntk) : Prop :=
  Ext N N' ∧ ∀ i, N.size ≤ i → i < N'.size → Origin S order N' (N'.node i)

theorem Adds.refl (S : Ntk) (order : List Nat) (N : Ntk) : Adds S order N N := ⟨Ext.refl _, fun i h1 h2 => absurd h2 (by omega)⟩

theorem Adds.trans {S : Ntk} {order : List Nat} {A B C : Ntk} (h : Adds S order A B) (k : Adds S order B C) : Adds S order A C := by
  refine ⟨h.1.trans k.1, ?_⟩
  intro i h1 h2
  by_cases hb : i < B.size
  · rw [k.1.node i hb]
    exact (h.2 i h1 hb).ext k.1
  · exact k.2 i (by omega) h2

theorem Adds.one {S : Ntk} {order : List Nat} {N : Ntk} {x : Node} (h : Origin S order N x) : Adds S order N (N.add x).1 := by
  have e : Ext N (N.add x).1 := Ext.add N x
  refine ⟨e, ?_⟩
  intro i h1 h2
  rw [Ntk.size_add] at h2
  have : i = N.size := by omega
  subst this
  rw [Ntk.node_add, if_pos rfl]
  exact h.ext e

/-- Nodes that exist and are not constant. -/
def Live (N : Ntk) (b : Nat) : Prop := b < N.size ∧ (N.node b).isConst = false

theorem Live.ext {N N' : Ntk} {b : Nat} (h : Live N b) (e : Ext N N') : Live N' b :=
  ⟨lt_of_lt_of_le h.1 e.size, by rw [e.node b h.1]; exact h.2⟩

theorem Live.new (N : Ntk) (c : Nat) : Live (N.add (.buf c)).1 N.size := by
  refine ⟨by rw [Ntk.size_add]; omega, ?_⟩
  rw [Ntk.node_add, if_pos rfl]
  rfl

theorem Grow.adds {S : Ntk} {order : List Nat} {d j : Nat} {N : Ntk} {q : List Nat} {N' : Ntk} {q' : List Nat} (h : Grow d j N q N' q')
    (hq : ∀ b ∈ q, Live N b) : Adds S order N N' ∧ ∀ b ∈ q', Live N' b := by
  induction h with
  | nil => exact ⟨.refl _ _ _, hq⟩
  | step j N q c q0 q1 N' q' h1 h2 h3 ih =>
    have hc := hq c (h1.subset (by simp))
    have ha : Adds S order N (N.add (.buf c)).1 := .one (Or.inl ⟨c, rfl, hc.1, hc.2⟩)
    obtain ⟨i1, i2⟩ := ih (by
      intro b hb
      rcases List.mem_append.1 (h2.subset hb) with hb | hb
      · exact (hq b (h1.subset (List.mem_cons_of_mem _ hb))).ext ha.1
      · rw [List.eq_of_mem_replicate hb]; exact Live.new N c)
    exact ⟨ha.trans i1, i2⟩

theorem depth_adds {S : Ntk} {order : List Nat} : ∀ (j : Nat) (N : Ntk) (child : Nat) (q : List Nat), Live N child → (∀ b ∈ q, Live N b) →
    Adds S order N (depthTree j N child q).1 ∧ ∀ b ∈ (depthTree j N child q).2, Live (depthTree j N child q).1 b := by
  intro j
  induction j with
  | zero => intro N child q _ hq; exact ⟨.refl _ _ _, hq⟩
  | succ j ih =>
    intro N child q hc hq
    have ha : Adds S order N (N.add (.buf child)).1 := .one (Or.inl ⟨child, rfl, hc.1, hc.2⟩)
    rw [depthTree]
    obtain ⟨i1, i2⟩ := ih (N.add (.buf child)).1 N.size (q ++ [N.size]) (Live.new N child) (by
      intro b hb
      rcases List.mem_append.1 hb with hb | hb
      · exact (hq b hb).ext ha.1
      · rw [List.mem_singleton] at hb
        rw [hb]; exact Live.new N child)
    exact ⟨ha.trans i1, i2⟩

theorem generateTree_adds {S : Ntk} {order : List Nat} (ps : FanoutParams) (n : Nat) (st st' : FanoutState)
    (hr : Live st.ntk (st.old2new n)) (he : generateTree ps S n st = some st') :
    Adds S order st.ntk st'.ntk ∧ st'.old2new = st.old2new ∧
      (∀ m, m ≠ n → st'.avail m = st.avail m) ∧
      (st'.avail n = st.avail n ∨ (ps.threshold < S.fanoutSize n ∧ ∀ b ∈ st'.avail n, Live st'.ntk b)) := by
  unfold generateTree at he
  split at he
  · cases he; exact ⟨.refl _ _ _, rfl, fun _ _ => rfl, Or.inl rfl⟩
  · dsimp only at he
    split at he
    · cases he; exact ⟨.refl _ _ _, rfl, fun _ _ => rfl, Or.inl rfl⟩
    · rename_i hk
      have hlt : ps.threshold < S.fanoutSize n := by
        by_contra hc
        apply hk
        unfold numFanouts
        apply Nat.div_eq_of_lt
        omega
      have one : ∀ b ∈ [st.old2new n], Live st.ntk b := by simpa using hr
      have key : ∀ (r : Ntk × List Nat), (Adds S order st.ntk r.1 ∧ ∀ b ∈ r.2, Live r.1 b) →
          (⟨r.1, st.old2new, fun m => if m = n then r.2 else st.avail m⟩ : FanoutState) = st' →
          Adds S order st.ntk st'.ntk ∧ st'.old2new = st.old2new ∧
            (∀ m, m ≠ n → st'.avail m = st.avail m) ∧
            (st'.avail n = st.avail n ∨ (ps.threshold < S.fanoutSize n ∧ ∀ b ∈ st'.avail n, Live st'.ntk b)) := by
        intro r hr e
        subst e
        refine ⟨hr.1, rfl, fun m hm => by simp [hm], Or.inr ⟨hlt, ?_⟩⟩
        simp only [if_true]
        exact hr.2
      cases hs : ps.strategy with
      | depth =>
        rw [hs] at he
        simp only [Option.map_some, Option.some.injEq] at he
        exact key _ (depth_adds _ _ _ _ hr (by simp)) he
      | breadth =>
        rw [hs] at he
        simp only [Option.map_eq_some_iff] at he
        obtain ⟨⟨N', q'⟩, hr, e⟩ := he
        exact key (N', q') ((breadth_grow _ _ _ _ _ _ hr).adds one) e
      | random rnd =>
        rw [hs] at he
        simp only [Option.map_eq_some_iff] at he
        obtain ⟨⟨N', q'⟩, hr, e⟩ := he
        exact key (N', q') ((random_grow _ _ _ _ _ _ _ hr).adds one) e

/-- Whatever stands for a translated node that is not constant is not constant. -/
def Alive (S : Ntk) (st : FanoutState) (done : List Nat) : Prop :=
  ∀ n, Tr S done n → (S.node n).isConst = false → ∀ x ∈ own st n, Live st.ntk x

/-- Nodes with few fanouts have no tree. -/
def Bare (ps : FanoutParams) (S : Ntk) (st : FanoutState) : Prop := ∀ n, S.fanoutSize n ≤ ps.threshold → st.avail n = []

theorem Alive.tree {S : Ntk} {order : List Nat} {ps : FanoutParams} {n : Nat} {st st' : FanoutState} {done : List Nat} (h : Alive S st done)
    (hn : Tr S done n) (hc : (S.node n).isConst = false) (he : generateTree ps S n st = some st') :
    Adds S order st.ntk st'.ntk ∧ Alive S st' done := by
  obtain ⟨h1, h2, h3, h4⟩ := generateTree_adds (order := order) ps n st st' (h n hn hc _ (Finset.mem_insert_self _ _)) he
  refine ⟨h1, ?_⟩
  intro m hm hmc x hx
  unfold own at hx
  rw [Finset.mem_insert, List.mem_toFinset, h2] at hx
  rcases hx with rfl | hx
  · exact (h m hm hmc _ (Finset.mem_insert_self _ _)).ext h1.1
  · by_cases e : m = n
    · subst e
      rcases h4 with h4 | h4
      · rw [h4] at hx
        exact (h m hm hmc x (Finset.mem_insert_of_mem (List.mem_toFinset.2 hx))).ext h1.1
      · exact h4.2 x hx
    · rw [h3 m e] at hx
      exact (h m hm hmc x (Finset.mem_insert_of_mem (List.mem_toFinset.2 hx))).ext h1.1

theorem Bare.tree {S : Ntk} {ps : FanoutParams} {n : Nat} {st st' : FanoutState} (h : Bare ps S st) (he : generateTree ps S n st = some st') :
    Bare ps S st' := by
  intro m hm
  unfold generateTree at he
  split at he
  · cases he; exact h m hm
  · dsimp only at he
    split at he
    · cases he; exact h m hm
    · rename_i hk
      have hne : m ≠ n := by
        rintro rfl
        apply hk
        unfold numFanouts
        apply Nat.div_eq_of_lt
        omega
      simp only [Option.map_eq_some_iff] at he
      obtain ⟨r, -, rfl⟩ := he
      simp only [if_neg hne]
      exact h m hm

theorem Bare.pis {S : Ntk} {ps : FanoutParams} : ∀ (l : List Nat) (st st' : FanoutState) (_ : Bare ps S st)
    (_ : l.foldlM (fun st n => generateTree ps S n st) st = some st'), Bare ps S st' := by
  intro l
  induction l with
  | nil => intro st st' h he; simp at he; subst he; exact h
  | cons n l ih =>
    intro st st' h he
    simp only [List.foldlM_cons, Option.bind_eq_bind, Option.bind_eq_some_iff] at he
    obtain ⟨st1, h1, h2⟩ := he
    exact ih st1 st' (h.tree h1) h2

theorem Bare.gates {S : Ntk} {ps : FanoutParams} : ∀ (l : List Nat) (st st' : FanoutState) (_ : Bare ps S st)
    (_ : l.foldlM (substGate ps S) st = some st'), Bare ps S st' := by
  intro l
  induction l with
  | nil => intro st st' h he; simp at he; subst he; exact h
  | cons n l ih =>
    intro st st' h he
    simp only [List.foldlM_cons, Option.bind_eq_bind, Option.bind_eq_some_iff] at he
    obtain ⟨st1, h1, h2⟩ := he
    refine ih st1 st' ?_ h2
    unfold substGate at h1
    split at h1
    · cases h1
    · rename_i cs _
      exact Bare.tree (st := ⟨(st.ntk.add ((S.node n).withFanins cs)).1, fun m => if m = n then (st.ntk.add ((S.node n).withFanins cs)).2
        else st.old2new m, st.avail⟩) h h1

theorem pis_adds {S : Ntk} {order : List Nat} {ps : FanoutParams} : ∀ (l : List Nat) (st st' : FanoutState) (_ : Alive S st [])
    (_ : ∀ n ∈ l, n < S.size ∧ (S.node n).isPi = true)
    (_ : l.foldlM (fun st n => generateTree ps S n st) st = some st'), Adds S order st.ntk st'.ntk ∧ Alive S st' [] := by
  intro l
  induction l with
  | nil => intro st st' h _ he; simp at he; subst he; exact ⟨.refl _ _ _, h⟩
  | cons n l ih =>
    intro st st' h hl he
    simp only [List.foldlM_cons, Option.bind_eq_bind, Option.bind_eq_some_iff] at he
    obtain ⟨st1, h1, h2⟩ := he
    have hn := hl n (List.mem_cons_self ..)
    have hc : (S.node n).isConst = false := by
      have := hn.2
      cases hx : S.node n <;> rw [hx] at this <;> simp_all [Node.isPi, Node.isConst]
    obtain ⟨a1, a2⟩ := h.tree (order := order) ⟨hn.1, Or.inl (by rw [Node.isGate_eq, hn.2]; simp)⟩ hc h1
    obtain ⟨b1, b2⟩ := ih st1 st' a2 (fun m hm => hl m (List.mem_cons_of_mem _ hm)) h2
    exact ⟨a1.trans b1, b2⟩

theorem forall₂_nodup {R : Nat → Nat → Prop} (hR : ∀ f g c, R f c → R g c → f = g) {fs cs : List Nat} (h : List.Forall₂ R fs cs)
    (hn : fs.Nodup) : cs.Nodup := by
  induction h with
  | nil => exact List.nodup_nil
  | @cons f c fs cs hr ht ih =>
    rw [List.nodup_cons] at hn ⊢
    refine ⟨?_, ih hn.2⟩
    intro hm
    obtain ⟨g, hg, hr'⟩ := forall₂_right ht c hm
    exact hn.1 (hR f g c hr hr' ▸ hg)

section
variable {ps : FanoutParams} (hd : 2 ≤ ps.degree) {S : Ntk} {k : Nat} (hS : S.WF k) {order : List Nat} (ho : TopoOrder S order)
  (hnc : ∀ n ∈ order, ∀ f ∈ (S.node n).fanins, (S.node f).isConst = false) (hnd : ∀ n ∈ order, (S.node n).fanins.Nodup)
include hd hS ho hnc hnd

theorem gates_adds (P : Nat → Nat) (hrem : ∀ n, remG S order n + P n ≤ S.fanoutSize n) :
    ∀ (r l : List Nat) (st st' : FanoutState) (_ : order = l ++ r) (_ : CapInv ps S st l (fun n => remG S r n + P n) [])
      (_ : Alive S st l) (_ : r.foldlM (substGate ps S) st = some st'), Adds S order st.ntk st'.ntk ∧ Alive S st' order := by
  intro r
  induction r with
  | nil =>
    intro l st st' e _ ha he
    simp at he e
    subst he e
    exact ⟨.refl _ _ _, ha⟩
  | cons n r ih =>
    intro l st st' e h ha he
    simp only [List.foldlM_cons, Option.bind_eq_bind, Option.bind_eq_some_iff] at he
    obtain ⟨st1, e1, e2⟩ := he
    have hnm : n ∈ order := by rw [e]; simp
    have hn := ho.gates n hnm
    have hnl : n ∉ l := by
      have := ho.nodup
      rw [e] at this
      have := (List.nodup_append.1 this).2.2
      intro hm; exact this n hm n (by simp) rfl
    have hre : ∀ m, remG S order m = remG S l m + ((S.node n).fanins.count m + remG S r m) := by
      intro m
      rw [e]; unfold remG; simp
    obtain ⟨st1', h1, h2, -⟩ := gate_step hd hS (rem := fun m => remG S (n :: r) m + P m)
      (rem' := fun m => remG S r m + P m)
      (by intro m; rw [remG_cons]; have := hrem m; have := hre m; omega) h hn.1 hn.2 hnl (ho.fanins l n r e)
      (by intro m; rw [remG_cons]; omega)
    have : st1' = st1 := by rw [e1] at h1; injection h1 with h1; exact h1.symm
    subst this
    have hfan : ∀ f ∈ (S.node n).fanins, Tr S l f := by
      intro f hf
      refine ⟨lt_trans (hS.fanins n hn.1 f hf) hn.1, ?_⟩
      by_cases hfg : (S.node f).isGate = true
      · exact Or.inr (ho.fanins l n r e f hf hfg)
      · exact Or.inl (by simpa using hfg)
    -- the new gate
    have e1' := e1
    unfold substGate at e1'
    split at e1'
    · cases e1'
    · rename_i cs hcs
      have hf2 := mapM_some_spec _ _ _ hcs
      have hch : List.Forall₂ (fun f c => f ∈ (S.node n).fanins ∧ c ∈ own st f) (S.node n).fanins cs := by
        have : List.Forall₂ (fun f c => c ∈ own st f) (S.node n).fanins cs :=
          hf2.imp (fun f c hx => (substChild_choice h.consts hx).own)
        rw [List.forall₂_iff_get] at this ⊢
        exact ⟨this.1, fun i h1 h2 => ⟨List.get_mem _ _, this.2 i h1 h2⟩⟩
      have hlive : ∀ c ∈ cs, Live st.ntk c := by
        intro c hc
        obtain ⟨f, hf, -, hx⟩ := forall₂_right hch c hc
        exact ha f (hfan f hf) (hnc n hnm f hf) c hx
      have hcn : cs.Nodup := forall₂_nodup (fun f g c h1 h2 => h.disj f g c (hfan f h1.1) (hfan g h2.1) h1.2 h2.2) hch (hnd n hnm)
      have hor : Origin S order st.ntk ((S.node n).withFanins cs) :=
        Or.inr ⟨n, hnm, cs, rfl, hf2.length_eq.symm, hcn, hlive⟩
      have a1 : Adds S order st.ntk (st.ntk.add ((S.node n).withFanins cs)).1 := .one hor
      have hxg : ((S.node n).withFanins cs).isConst = false := by
        have := hn.2
        revert this
        cases S.node n <;> simp [Node.withFanins, Node.isGate, Node.isConst]
      have ha1 : Alive S ⟨(st.ntk.add ((S.node n).withFanins cs)).1, fun m => if m = n then (st.ntk.add ((S.node n).withFanins cs)).2 else st.old2new m,
          st.avail⟩ (l ++ [n]) := by
        intro m hm hmc x hx
        unfold own at hx
        simp only [Finset.mem_insert, List.mem_toFinset] at hx
        by_cases emn : m = n
        · subst emn
          have hav : st.avail m = [] := h.empty m (by
            rintro ⟨-, h' | h'⟩
            · rw [hn.2] at h'; cases h'
            · exact hnl h')
          rw [hav] at hx
          simp only [if_true, List.not_mem_nil, or_false] at hx
          rw [hx]
          refine ⟨by rw [Ntk.size_add]; exact Nat.lt_succ_self _, ?_⟩
          rw [Ntk.node_add, if_pos (show (st.ntk.add _).2 = st.ntk.size from rfl)]
          exact hxg
        · rw [if_neg emn] at hx
          have hmt : Tr S l m := by
            refine ⟨hm.1, hm.2.imp id (fun h' => ?_)⟩
            rcases List.mem_append.1 h' with h' | h'
            · exact h'
            · exact absurd (List.mem_singleton.1 h') emn
          refine (ha m hmt hmc x ?_).ext a1.1
          unfold own
          rw [Finset.mem_insert, List.mem_toFinset]
          exact hx
      have hnc' : (S.node n).isConst = false := by
        have := hn.2
        rw [Node.isGate_eq] at this
        simp at this
        exact this.1
      obtain ⟨b1, b2⟩ := ha1.tree (order := order) ⟨hn.1, Or.inr (by simp)⟩ hnc' e1'
      obtain ⟨c1, c2⟩ := ih (l ++ [n]) st1' st' (by rw [e]; simp) h2 b2 e2
      exact ⟨(a1.trans b1).trans c1, c2⟩

end

theorem init_alive {S : Ntk} {k : Nat} (hS : S.WF k) : Alive S ⟨Ntk.initCopy k, S.initMap, fun _ => []⟩ [] := by
  intro n hn hc x hx
  unfold own at hx
  simp only [List.toFinset_nil, insert_empty_eq, Finset.mem_singleton] at hx
  subst hx
  have hb : BoundInv ⟨.breadth, 2, 1⟩ S ⟨Ntk.initCopy k, S.initMap, fun _ => []⟩ [] := init_bound hS
  exact ⟨((init_fun S k hS).map n hn.1 hn.2).1, by rw [(hb.kind n hn).2]; exact hc⟩

theorem pos_drivers {ps : FanoutParams} : ∀ (l : List Nat) (st st' : FanoutState) (_ : l.foldlM (substPo ps) st = some st')
    (_ : ∀ p ∈ l, st.avail p = []), st'.avail = st.avail ∧ st'.old2new = st.old2new ∧ st'.ntk.pos = st.ntk.pos ++ l.map st.old2new := by
  intro l
  induction l with
  | nil => intro st st' he _; simp at he; subst he; simp
  | cons p l ih =>
    intro st st' he ha
    simp only [List.foldlM_cons, Option.bind_eq_bind, Option.bind_eq_some_iff] at he
    obtain ⟨st1, h1, h2⟩ := he
    unfold substPo at h1
    simp only [Option.map_eq_some_iff] at h1
    obtain ⟨c, hc, rfl⟩ := h1
    have hcc : c = st.old2new p := by
      unfold getFanout at hc
      simp only [ha p (by simp), if_true] at hc
      split at hc <;> exact (Option.some.inj hc).symm
    obtain ⟨i1, i2, i3⟩ := ih _ st' h2 (fun q hq => ha q (List.mem_cons_of_mem _ hq))
    refine ⟨i1, i2, ?_⟩
    rw [i3, hcc]
    simp [Ntk.createPo]

/-- The structure of the result of fanout substitution. -/
theorem fanoutSubstitution_origin {ps : FanoutParams} (hd : 2 ≤ ps.degree) (ht : 1 ≤ ps.threshold) {S D : Ntk} {k : Nat} (hS : S.WF k)
    {order : List Nat} (ho : TopoOrder S order)
    (hnc : ∀ n ∈ order, ∀ f ∈ (S.node n).fanins, (S.node f).isConst = false) (hnd : ∀ n ∈ order, (S.node n).fanins.Nodup)
    (h : fanoutSubstitution ps S k order = some D) :
    (∀ i < D.size, (D.node i).isGate = true → Origin S order D (D.node i)) ∧
    ((∀ p ∈ S.pos, S.fanoutSize p ≤ ps.threshold) → ∃ m : Nat → Nat, D.pos = S.pos.map m ∧
      ∀ p ∈ S.pos, (D.node (m p)).isConst = (S.node p).isConst ∧ D.fanoutSize (m p) ≤ S.fanoutSize p ∧
        (D.node (m p)).isBuf = (S.node p).isBuf) ∧
    D.pis = (List.range k).map (fun j => 2 + j) ∧ ∀ j < k, D.node (2 + j) = .pi j := by
  obtain ⟨st1, st2, st3, e1, e2, e3, rfl⟩ := fanoutSubstitution_phases h
  have hrem := rem_le S order ho
  have hpis := fun n (hn : n ∈ S.pis) => (pis_spec S n).1 hn
  have c0 := init_cap (ps := ps) hS hrem
  obtain ⟨st1', a1, a2, a3⟩ := pis_phase (ps := ps) hd hrem S.pis _ c0 (fun _ => init_bound hS) (pis_nodup S) hpis
  have : st1' = st1 := by rw [e1] at a1; injection a1 with a1; exact a1.symm
  subst this
  obtain ⟨st2', b1, b2, b3⟩ := gates_phase hd hS ho (fun n => S.pos.count n) hrem order [] st1' (by simp) a2
  have : st2' = st2 := by rw [e2] at b1; injection b1 with b1; exact b1.symm
  subst this
  obtain ⟨p1, p2⟩ := pis_adds (order := order) S.pis _ st1' (init_alive hS) hpis e1
  obtain ⟨q1, q2⟩ := gates_adds hd hS ho hnc hnd (fun n => S.pos.count n) hrem order [] st1' st2' (by simp) a2 p2 e2
  have hadd := p1.trans q1
  have hnodes : st3.ntk.nodes = st2'.ntk.nodes := by
    have a1 := foldlM_pis_fun ps S S.pis _ st1' (init_fun S k hS) (by
      intro n hn
      have := hpis n hn
      exact ⟨this.1, by rw [Node.isGate_eq, this.2]; simp⟩) e1
    have a2 := foldlM_gates_fun ps S k hS order ho order [] st1' st2' (by simp) a1.1 e2
    exact (foldlM_pos_fun ps S order S.pos st2' st3 a2.1 (gate_of_fanin_wf S order ho k hS) e3).1
  have hsz : st3.ntk.size = st2'.ntk.size := by unfold Ntk.size; rw [hnodes]
  have hnode : st3.ntk.node = st2'.ntk.node := by funext i; unfold Ntk.node; rw [hnodes]
  have hinit : ∀ i < k + 2, st2'.ntk.node i = (Ntk.initCopy k).node i := fun i hi => hadd.1.node i (by rw [initCopy_size]; exact hi)
  refine ⟨?_, ?_, ?_⟩
  · intro i hi hg
    have hge : k + 2 ≤ i := by
      by_contra hc
      rw [hnode, hinit i (by omega), initCopy_node] at hg
      split_ifs at hg <;> simp [Node.isGate] at hg
    have := hadd.2 i (by show (Ntk.initCopy k).size ≤ i; rw [initCopy_size]; exact hge) (by rw [← hsz]; exact hi)
    rw [hnode]
    unfold Origin at this ⊢
    rw [hsz, hnode]
    exact this
  · intro hf
    have hb2 : Bare ps S st2' := .gates order _ _ (.pis S.pis _ _ (fun _ _ => rfl) e1) e2
    obtain ⟨r1, r2, r3⟩ := pos_drivers S.pos st2' st3 e3 (fun p hp => hb2 p (hf p hp))
    have hbi : BoundInv ps S st2' order := b3 ht (a3 ht) (by
      intro n hn f _ _
      exact List.nodup_iff_count_le_one.1 (hnd n hn) f)
    obtain ⟨st3', d1, d2, d3⟩ := pos_phase S.pos st2' b2 (gate_of_fanin_wf S order ho k hS)
    have : st3' = st3 := by rw [e3] at d1; injection d1 with d1; exact d1.symm
    subst this
    have hpos0 : st2'.ntk.pos = [] := by rw [hadd.1.pos]; rfl
    refine ⟨st3'.old2new, by rw [r3, hpos0, r2]; rfl, ?_⟩
    intro p hp
    have htr : Tr S order p := gate_of_fanin_wf S order ho k hS p hp
    refine ⟨((d3 hbi).kind p htr).2, ?_, ((d3 hbi).kind p htr).1⟩
    have := d2.full p htr (by rw [r1]; exact hb2 p (hf p hp))
    simpa using this
  · have hpi : ∀ i < k + 2, st3.ntk.node i = (Ntk.initCopy k).node i := by rw [hnode]; exact hinit
    have hle : k + 2 ≤ st3.ntk.size := by
      rw [hsz]
      have := hadd.1.size
      rw [initCopy_size] at this
      exact this
    have hn2 : ∀ j < k, st3.ntk.node (2 + j) = .pi j := by
      intro j hj
      rw [hpi _ (by omega), initCopy_node, if_neg (by omega), if_neg (by omega), if_pos (by omega), Nat.add_sub_cancel_left]
    refine ⟨?_, hn2⟩
    obtain ⟨r, hr⟩ := Nat.exists_eq_add_of_le hle
    have hpi2 : ∀ i, k + 2 ≤ i → i < st3.ntk.size → (st3.ntk.node i).isPi = false := by
      intro i h1 h2
      have := hadd.2 i (by show (Ntk.initCopy k).size ≤ i; rw [initCopy_size]; exact h1) (by rw [← hsz]; exact h2)
      rw [hnode]
      rcases this with ⟨f, hf, -⟩ | ⟨n, hn, cs, hx, -⟩
      · rw [hf]; rfl
      · rw [hx]
        have := (ho.gates n hn).2
        revert this
        cases S.node n <;> simp [Node.isGate, Node.withFanins, Node.isPi]
    unfold Ntk.pis
    rw [hr, List.range_add, show k + 2 = 2 + k by omega, List.range_add, List.filter_append, List.filter_append]
    have f1 : (List.range 2).filter (fun i => (st3.ntk.node i).isPi) = [] := by
      rw [List.filter_eq_nil_iff]
      intro i hi
      rw [List.mem_range] at hi
      rw [hpi i (by omega), initCopy_node]
      have : i = 0 ∨ i = 1 := by omega
      rcases this with rfl | rfl <;> simp [Node.isPi]
    have f2 : ((List.range k).map (fun x => 2 + x)).filter (fun i => (st3.ntk.node i).isPi) = (List.range k).map (fun x => 2 + x) := by
      rw [List.filter_eq_self]
      intro i hi
      obtain ⟨j, hj, rfl⟩ := List.mem_map.1 hi
      rw [hn2 j (List.mem_range.1 hj)]
      rfl
    have f3 : ((List.range r).map (fun x => 2 + k + x)).filter (fun i => (st3.ntk.node i).isPi) = [] := by
      rw [List.filter_eq_nil_iff]
      intro i hi
      obtain ⟨j, hj, rfl⟩ := List.mem_map.1 hi
      rw [List.mem_range] at hj
      rw [hpi2 _ (by omega) (by omega)]
      simp
    rw [f1, f2, f3]
    simp

end Verif.Networks
