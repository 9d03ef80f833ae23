import Verif.PhysicalDesign.OrthoColor
import Verif.PhysicalDesign.OrthoStep
import Verif.Networks.Lemmas

/-!
# The invariant of the main loop of the orthogonal physical design
-/
namespace Verif.PhysicalDesign.Ortho

open Verif.Layouts Verif.Clocking Verif.GateLevel Verif.Networks

/-- The assumptions on the network, in the form in which they are used. -/
structure Ok (N : Ntk) (order : List Nat) (lit : Nat → Nat) (tab : Nat → List Bool → Bool) : Prop where
  fan : ∀ i < N.size, ∀ f ∈ (N.node i).fanins, f < i
  topo : TopoOrder N order
  net3 : Net3 N
  noConst : ∀ n ∈ order, ∀ f ∈ (N.node n).fanins, (N.node f).isConst = false
  nonempty : ∀ n ∈ order, (N.node n).fanins ≠ []
  piFan : ∀ n, (N.node n).isPi = true → (N.fanouts n).length ≤ 1
  wire : ∀ b, tab 2 [b] = b
  value : ∀ n ∈ order, ∀ a v, (N.node n).value a v = tab (lit n) ((N.node n).fanins.map v)
  one : ∀ n ∈ order, (N.node n).fanins.length = 1 → lit n = 2 ∨ lit n = 3
  comm : ∀ n ∈ order, (N.node n).fanins.length = 2 → ∀ b c, tab (lit n) [b, c] = tab (lit n) [c, b]
  pis : ∀ l n r, N.pis = l ++ n :: r → N.node n = .pi l.length
  poFan : ∀ p ∈ N.pos, N.fanouts p = []
  poNodup : N.pos.Nodup
  poConst : ∀ p ∈ N.pos, (N.node p).isConst = false
  poLt : ∀ p ∈ N.pos, p < N.size

/-- The invariant after the nodes `done`. -/
structure Inv (N : Ntk) (order : List Nat) (tab : Nat → List Bool → Bool) (G : Grid) (done : List Nat) (st : Loop) : Prop where
  rep : Rep N.pis.length G st.lyt
  inputs : st.lyt.inputs = (List.range N.pis.length).map (2 + ·)
  outputs : st.lyt.outputs = []
  lx : 0 < st.lx
  front : ∀ x y, G x y ≠ .none → x < st.lx ∧ y < st.ly
  X : ∀ n ∈ done, G (st.pos n).x (st.pos n).y = .X ∧ (st.pos n).z = 0 ∧ (st.pos n).d = false
  inj : ∀ n ∈ done, ∀ k ∈ done, st.pos n = st.pos k → n = k
  val : ∀ n ∈ done, ∀ a, SVal tab N.pis.length st.lyt a (st.pos n) (N.value a n)
  claimE : ∀ s ∈ done, ∀ t ∈ order, t ∉ done → Edge N s t → (coloring N order).1 s t = .east → EastClaim G (st.pos s)
  claimS : ∀ s ∈ done, ∀ t ∈ order, t ∉ done → Edge N s t → (coloring N order).1 s t = .south → SouthClaim G (st.pos s)
  leaf : ∀ s ∈ done, N.fanouts s = [] → EastClaim G (st.pos s)
  freeE : ∀ s ∈ done, (N.node s).isPi = false → G ((st.pos s).x + 1) (st.pos s).y = .none → EastClaim G (st.pos s)
  freeS : ∀ s ∈ done, (N.node s).isPi = false → G (st.pos s).x ((st.pos s).y + 1) = .none → SouthClaim G (st.pos s)
  pif : ∀ j, done.length ≤ j → j < N.pis.length → ∀ t, st.lyt.tileNode t ≠ some (2 + j)
  piTile : ∀ j, j < done.length → j < N.pis.length → st.lyt.tileNode ⟨0, j, 0, false⟩ = some (2 + j)

def At (done : List Nat) (pos : Nat → Coord) (p : Coord) : Prop := ∃ s ∈ done, p = pos s

theorem Inv.hP {N : Ntk} {order : List Nat} {tab : Nat → List Bool → Bool} {G : Grid} {done : List Nat} {st : Loop}
    (h : Inv N order tab G done st) : ∀ p, At done st.pos p → G p.x p.y = .X ∧ p.z = 0 ∧ p.d = false := by
  rintro p ⟨s, hs, rfl⟩
  exact h.X s hs

theorem Inv.mem {done : List Nat} {pos : Nat → Coord} {s : Nat} (h : s ∈ done) : At done pos (pos s) := ⟨s, h, rfl⟩

section
variable {N : Ntk} {order : List Nat} {tab : Nat → List Bool → Bool}

/-- A gate has been placed on `t`. -/
theorem advance {G G' : Grid} {done : List Nat} {st : Loop} (h : Inv N order tab G done st) {n : Nat} (hn : n ∉ done)
    (hpi : N.pis.length ≤ done.length) {t : Coord} (htz : t.z = 0) (htd : t.d = false) {cE cS : Coord → Prop} {lx' ly' : Nat}
    (e : Eff G G' (At done st.pos) t cE cS lx' ly') (hl : 0 < lx') {s' : State} (hs : Stepped N.pis.length G' st.lyt s')
    (hv : ∀ a, SVal tab N.pis.length s' a t (N.value a n))
    (hE : ∀ s ∈ done, cE (st.pos s) → Edge N s n ∧ ∀ t' ∈ order, t' ∉ done → t' ≠ n → Edge N s t' → (coloring N order).1 s t' ≠ .east)
    (hS : ∀ s ∈ done, cS (st.pos s) → Edge N s n ∧ ∀ t' ∈ order, t' ∉ done → t' ≠ n → Edge N s t' → (coloring N order).1 s t' ≠ .south) :
    Inv N order tab G' (done ++ [n]) ⟨s', fun k => if k = n then t else st.pos k, lx', ly'⟩ := by
  have hpos : ∀ k ∈ done, (if k = n then t else st.pos k) = st.pos k := by
    intro k hk
    rw [if_neg]
    rintro rfl
    exact hn hk
  have hcase : ∀ {Q : Nat → Prop}, (∀ k ∈ done, Q k) → Q n → ∀ k ∈ done ++ [n], Q k := by
    intro Q h1 h2 k hk
    rcases List.mem_append.1 hk with hk | hk
    · exact h1 k hk
    · rw [List.mem_singleton] at hk
      rw [hk]; exact h2
  refine ⟨hs.rep, by rw [hs.inputs, h.inputs], by rw [hs.outputs, h.outputs], hl, e.front, ?_, ?_, ?_, ?_, ?_, ?_, ?_, ?_, ?_, ?_⟩
  · apply hcase
    · intro k hk
      simp only [hpos k hk]
      exact ⟨e.monoX _ _ (h.X k hk).1, (h.X k hk).2⟩
    · simp only [if_true]
      exact ⟨e.newX, htz, htd⟩
  · have hnew : ∀ k ∈ done, st.pos k ≠ t := by
      intro k hk he
      have := (h.X k hk).1
      rw [he, e.fresh] at this
      cases this
    apply hcase
    · intro k hk
      apply hcase
      · intro k' hk'
        simp only [hpos k hk, hpos k' hk']
        exact h.inj k hk k' hk'
      · simp only [hpos k hk, if_true]
        exact fun he => absurd he (hnew k hk)
    · apply hcase
      · intro k' hk'
        simp only [hpos k' hk', if_true]
        exact fun he => absurd he.symm (hnew k' hk')
      · exact fun _ => rfl
  · apply hcase
    · intro k hk a
      simp only [hpos k hk]
      exact (h.val k hk a).mono hs.ext
    · intro a
      simp only [if_true]
      exact hv a
  · apply hcase
    · intro k hk t' ht' hd hedge hc
      simp only [hpos k hk]
      rw [List.mem_append, not_or, List.mem_singleton] at hd
      refine e.east _ (Inv.mem hk) (h.claimE k hk t' ht' hd.1 hedge hc) ?_
      intro hce
      exact (hE k hk hce).2 t' ht' hd.1 hd.2 hedge hc
    · intro t' _ _ _ _
      simp only [if_true]
      exact e.newE
  · apply hcase
    · intro k hk t' ht' hd hedge hc
      simp only [hpos k hk]
      rw [List.mem_append, not_or, List.mem_singleton] at hd
      refine e.south _ (Inv.mem hk) (h.claimS k hk t' ht' hd.1 hedge hc) ?_
      intro hce
      exact (hS k hk hce).2 t' ht' hd.1 hd.2 hedge hc
    · intro t' _ _ _ _
      simp only [if_true]
      exact e.newS
  · apply hcase
    · intro k hk hf
      simp only [hpos k hk]
      refine e.east _ (Inv.mem hk) (h.leaf k hk hf) ?_
      intro hce
      have := mem_fanouts.2 (hE k hk hce).1
      rw [hf] at this
      cases this
    · intro _
      simp only [if_true]
      exact e.newE
  · apply hcase
    · intro k hk hp hg
      simp only [hpos k hk] at hg ⊢
      refine e.east _ (Inv.mem hk) (h.freeE k hk hp ?_) ?_
      · by_contra hh
        exact e.mono _ _ hh hg
      · intro hce
        exact e.usedE _ (Inv.mem hk) hce hg
    · intro _ _
      simp only [if_true]
      exact e.newE
  · apply hcase
    · intro k hk hp hg
      simp only [hpos k hk] at hg ⊢
      refine e.south _ (Inv.mem hk) (h.freeS k hk hp ?_) ?_
      · by_contra hh
        exact e.mono _ _ hh hg
      · intro hce
        exact e.usedS _ (Inv.mem hk) hce hg
    · intro _ _
      simp only [if_true]
      exact e.newS
  · intro j hj hj'
    rw [List.length_append] at hj
    omega
  · intro j hj hj'
    exact (hs.ext _ _ rfl (h.piTile j (by omega) hj')).1

variable {lit : Nat → Nat}

theorem isEmptyTile_z0 {K : Nat} {G : Grid} {s : State} (r : Rep K G s) {x y : Nat} (h : s.isEmptyTile ⟨x, y, 0, false⟩ = true) : G x y = .none :=
  (r.z0 x y).2 ((isEmpty_iff r.wf rfl).1 h)

/-- The columns and rows a gate takes. -/
def gateX : Color → Nat
  | .south => 0
  | _ => 1
def gateY : Color → Nat
  | .east => 0
  | _ => 1

theorem gate_step (ok : Ok N order lit tab) {m : Dim} (hZ : m.Z = 1) {G : Grid} {l r : List Nat} {n : Nat} (ho : order = l ++ n :: r) {st : Loop}
    (h : Inv N order tab G (N.pis ++ l) st) (hX : st.lx ≤ m.X + 1) (hY : st.ly ≤ m.Y + 1) :
    ∃ st' G', (match (N.node n).fanins with
      | [f] => stepOne m (coloring N order).2 lit st n f
      | f :: g :: _ => some (stepTwo m (coloring N order).2 lit st n f g)
      | [] => none) = some st' ∧ Inv N order tab G' (N.pis ++ l ++ [n]) st' ∧
      st'.lx = st.lx + gateX ((coloring N order).2 n) ∧ st'.ly = st.ly + gateY ((coloring N order).2 n) := by
  have hci := cinv_coloring ok.net3 order ok.topo.nodup ok.nonempty
  have hnode := hci.node l n r ho
  have hnm : n ∈ order := by rw [ho]; simp
  have hnd : n ∉ N.pis ++ l := by
    rw [List.mem_append, not_or]
    constructor
    · intro hp
      unfold Ntk.pis at hp
      have h1 := (List.mem_filter.1 hp).2
      have h2 := (ok.topo.gates n hnm).2
      cases e : N.node n <;> rw [e] at h1 h2 <;> simp [Node.isPi, Node.isGate] at h1 h2
    · intro hl
      have := ok.topo.nodup
      rw [ho, List.nodup_append] at this
      exact this.2.2 n hl n (by simp) rfl
  have hfd : ∀ f, Edge N f n → f ∈ N.pis ++ l := by
    intro f hf
    rw [List.mem_append]
    by_cases hg : (N.node f).isGate = true
    · exact .inr (ok.topo.fanins l n r ho f hf hg)
    · left
      have hc := ok.noConst n hnm f hf
      have hlt : f < N.size := by
        have := ok.fan n (ok.topo.gates n hnm).1 f hf
        have := (ok.topo.gates n hnm).1
        omega
      unfold Ntk.pis
      rw [List.mem_filter, List.mem_range]
      refine ⟨hlt, ?_⟩
      cases e : N.node f <;> rw [e] at hc hg <;> simp [Node.isPi, Node.isGate, Node.isConst] at hc hg ⊢
  have hpl : N.pis.length ≤ (N.pis ++ l).length := by simp
  have hval : ∀ a, N.value a n = tab (lit n) ((N.node n).fanins.map (N.value a)) := by
    intro a
    rw [← ok.value n hnm a]
    exact Ntk.value_eq N ok.fan a n (ok.topo.gates n hnm).1
  have hsib : ∀ s, Edge N s n → ∀ t' : Nat, t' ≠ n → ∀ c : Color, c ≠ .null → (coloring N order).1 s n = c → (coloring N order).1 s t' ≠ c := by
    intro s hs t' ht' c hc hk hk'
    exact hci.cons.sib s n t' (Ne.symm ht') (by rw [hk]; exact hc) (by rw [hk']; exact hc) (by rw [hk, hk'])
  -- consuming the claim of the color of the edge
  have hcons : ∀ f, Edge N f n → ∀ s ∈ N.pis ++ l, st.pos s = st.pos f → s = f := fun f hf s hs e => h.inj s hs f (hfd f hf) e
  rcases hnode with ⟨hcol, hk⟩ | ⟨hcol, hk⟩ | ⟨hcol, hmix⟩
  · -- east
    have hcl : ∀ f, Edge N f n → EastClaim G (st.pos f) := fun f hf => h.claimE f (hfd f hf) n hnm hnd hf (hk f hf)
    have hE : ∀ f, Edge N f n → ∀ s ∈ N.pis ++ l, st.pos s = st.pos f →
        Edge N s n ∧ ∀ t' ∈ order, t' ∉ N.pis ++ l → t' ≠ n → Edge N s t' → (coloring N order).1 s t' ≠ .east := by
      intro f hf s hs e
      have := hcons f hf s hs e
      subst this
      exact ⟨hf, fun t' _ _ ht' _ => hsib s hf t' ht' .east (by simp) (hk s hf)⟩
    match hfs : (N.node n).fanins with
    | [] => exact absurd hfs (ok.nonempty n hnm)
    | [f] =>
      have hf : Edge N f n := by unfold Edge; rw [hfs]; simp
      have hat := Inv.mem (pos := st.pos) (hfd f hf)
      obtain ⟨s', hs', hst, hv⟩ := oneE_spec hZ ok.wire h.hP h.front h.rep hat (hcl f hf) (ok.one n hnm (by rw [hfs]; rfl))
      refine ⟨_, _, ?_, advance h hnd hpl rfl rfl (eff_oneE h.hP h.front hat (hcl f hf) h.lx) (by omega) hst ?_ ?_ ?_, ?_, ?_⟩
      · simp only [stepOne, hcol, hs', Option.map_some, Loop.setPos]
      · intro a
        rw [hval a, hfs]
        exact hv a _ (h.val f (hfd f hf) a)
      · exact hE f hf
      · intro s hs hh; exact absurd hh id
      · simp only [hcol, gateX]
      · simp only [hcol, gateY, Nat.add_zero]
    | [f, g] =>
      have hf : Edge N f n := by unfold Edge; rw [hfs]; simp
      have hg : Edge N g n := by unfold Edge; rw [hfs]; simp
      have hfg : f ≠ g := by
        have := ok.net3.nodup n
        rw [hfs] at this
        simpa using this
      have hatf := Inv.mem (pos := st.pos) (hfd f hf)
      have hatg := Inv.mem (pos := st.pos) (hfd g hg)
      have hyne : (st.pos f).y ≠ (st.pos g).y := fun e =>
        hfg (h.inj f (hfd f hf) g (hfd g hg) (east_unique h.hP hatf hatg (hcl f hf) (hcl g hg) e))
      have hE' : ∀ s ∈ N.pis ++ l, st.pos s = st.pos f ∨ st.pos s = st.pos g → Edge N s n ∧
          ∀ t' ∈ order, t' ∉ N.pis ++ l → t' ≠ n → Edge N s t' → (coloring N order).1 s t' ≠ .east := by
        rintro s hs (e | e)
        · exact hE f hf s hs e
        · exact hE g hg s hs e
      by_cases hy : (st.pos g).y < (st.pos f).y
      · obtain ⟨hst, hv⟩ := twoE_spec hZ ok.wire h.hP h.front h.rep hatg hatf (hcl g hg) (hcl f hf) hy (lit n)
        refine ⟨_, _, ?_, advance h hnd hpl rfl rfl (eff_twoE h.hP h.front hatg hatf (hcl g hg) (hcl f hf) hy h.lx) (by omega) hst ?_ ?_ ?_,
          ?_, ?_⟩
        · simp only [stepTwo, hcol, if_pos hy, Loop.setPos]
        · intro a
          rw [hval a, hfs]
          show SVal _ _ _ _ _ (tab (lit n) [N.value a f, N.value a g])
          rw [ok.comm n hnm (by rw [hfs]; rfl)]
          exact hv a _ _ (h.val g (hfd g hg) a) (h.val f (hfd f hf) a)
        · exact fun s hs hh => hE' s hs hh.symm
        · intro s hs hh; exact absurd hh id
        · simp only [hcol, gateX]
        · simp only [hcol, gateY, Nat.add_zero]
      · have hy' : (st.pos f).y < (st.pos g).y := by omega
        obtain ⟨hst, hv⟩ := twoE_spec hZ ok.wire h.hP h.front h.rep hatf hatg (hcl f hf) (hcl g hg) hy' (lit n)
        refine ⟨_, _, ?_, advance h hnd hpl rfl rfl (eff_twoE h.hP h.front hatf hatg (hcl f hf) (hcl g hg) hy' h.lx) (by omega) hst ?_ ?_ ?_,
          ?_, ?_⟩
        · simp only [stepTwo, hcol, if_neg hy, Loop.setPos]
        · intro a
          rw [hval a, hfs]
          exact hv a _ _ (h.val f (hfd f hf) a) (h.val g (hfd g hg) a)
        · exact hE'
        · intro s hs hh; exact absurd hh id
        · simp only [hcol, gateX]
        · simp only [hcol, gateY, Nat.add_zero]
    | a :: b :: c :: d =>
      have := ok.net3.len n
      rw [hfs] at this
      simp at this
  · -- south
    have hcl : ∀ f, Edge N f n → SouthClaim G (st.pos f) := fun f hf => h.claimS f (hfd f hf) n hnm hnd hf (hk f hf)
    have hS : ∀ f, Edge N f n → ∀ s ∈ N.pis ++ l, st.pos s = st.pos f →
        Edge N s n ∧ ∀ t' ∈ order, t' ∉ N.pis ++ l → t' ≠ n → Edge N s t' → (coloring N order).1 s t' ≠ .south := by
      intro f hf s hs e
      have := hcons f hf s hs e
      subst this
      exact ⟨hf, fun t' _ _ ht' _ => hsib s hf t' ht' .south (by simp) (hk s hf)⟩
    match hfs : (N.node n).fanins with
    | [] => exact absurd hfs (ok.nonempty n hnm)
    | [f] =>
      have hf : Edge N f n := by unfold Edge; rw [hfs]; simp
      have hat := Inv.mem (pos := st.pos) (hfd f hf)
      obtain ⟨s', hs', hst, hv⟩ := oneS_spec hZ ok.wire h.hP h.front h.rep hat (hcl f hf) (ok.one n hnm (by rw [hfs]; rfl))
      refine ⟨_, _, ?_, advance h hnd hpl rfl rfl (eff_oneS h.hP h.front hat (hcl f hf)) h.lx hst ?_ ?_ ?_, ?_, ?_⟩
      · simp only [stepOne, hcol, hs', Option.map_some, Loop.setPos]
      · intro a
        rw [hval a, hfs]
        exact hv a _ (h.val f (hfd f hf) a)
      · intro s hs hh; exact absurd hh id
      · exact hS f hf
      · simp only [hcol, gateX, Nat.add_zero]
      · simp only [hcol, gateY]
    | [f, g] =>
      have hf : Edge N f n := by unfold Edge; rw [hfs]; simp
      have hg : Edge N g n := by unfold Edge; rw [hfs]; simp
      have hfg : f ≠ g := by
        have := ok.net3.nodup n
        rw [hfs] at this
        simpa using this
      have hatf := Inv.mem (pos := st.pos) (hfd f hf)
      have hatg := Inv.mem (pos := st.pos) (hfd g hg)
      have hxne : (st.pos f).x ≠ (st.pos g).x := fun e =>
        hfg (h.inj f (hfd f hf) g (hfd g hg) (south_unique h.hP hatf hatg (hcl f hf) (hcl g hg) e))
      have hS' : ∀ s ∈ N.pis ++ l, st.pos s = st.pos f ∨ st.pos s = st.pos g → Edge N s n ∧
          ∀ t' ∈ order, t' ∉ N.pis ++ l → t' ≠ n → Edge N s t' → (coloring N order).1 s t' ≠ .south := by
        rintro s hs (e | e)
        · exact hS f hf s hs e
        · exact hS g hg s hs e
      by_cases hx : (st.pos g).x > (st.pos f).x
      · obtain ⟨hst, hv⟩ := twoS_spec hZ ok.wire h.hP h.front h.rep hatg hatf (hcl g hg) (hcl f hf) hx (lit n)
        refine ⟨_, _, ?_, advance h hnd hpl rfl rfl (eff_twoS h.hP h.front hatg hatf (hcl g hg) (hcl f hf) hx) h.lx hst ?_ ?_ ?_, ?_, ?_⟩
        · simp only [stepTwo, hcol, if_pos hx, Loop.setPos]
        · intro a
          rw [hval a, hfs]
          show SVal _ _ _ _ _ (tab (lit n) [N.value a f, N.value a g])
          rw [ok.comm n hnm (by rw [hfs]; rfl)]
          exact hv a _ _ (h.val g (hfd g hg) a) (h.val f (hfd f hf) a)
        · intro s hs hh; exact absurd hh id
        · exact fun s hs hh => hS' s hs hh.symm
        · simp only [hcol, gateX, Nat.add_zero]
        · simp only [hcol, gateY]
      · have hx' : (st.pos g).x < (st.pos f).x := by omega
        obtain ⟨hst, hv⟩ := twoS_spec hZ ok.wire h.hP h.front h.rep hatf hatg (hcl f hf) (hcl g hg) hx' (lit n)
        refine ⟨_, _, ?_, advance h hnd hpl rfl rfl (eff_twoS h.hP h.front hatf hatg (hcl f hf) (hcl g hg) hx') h.lx hst ?_ ?_ ?_, ?_, ?_⟩
        · simp only [stepTwo, hcol, if_neg hx, Loop.setPos]
        · intro a
          rw [hval a, hfs]
          exact hv a _ _ (h.val f (hfd f hf) a) (h.val g (hfd g hg) a)
        · intro s hs hh; exact absurd hh id
        · exact hS'
        · simp only [hcol, gateX, Nat.add_zero]
        · simp only [hcol, gateY]
    | a :: b :: c :: d =>
      have := ok.net3.len n
      rw [hfs] at this
      simp at this
  · -- mixed
    obtain ⟨f, g, hfs, hkf, hkg, ⟨tf, htf, hetf⟩, ⟨tg, htg, hetg⟩, hlater⟩ := hmix
    have hf : Edge N f n := by unfold Edge; rw [hfs]; simp
    have hg : Edge N g n := by unfold Edge; rw [hfs]; simp
    have hfg : f ≠ g := by
      have := ok.net3.nodup n
      rw [hfs] at this
      simpa using this
    have hatf := Inv.mem (pos := st.pos) (hfd f hf)
    have hatg := Inv.mem (pos := st.pos) (hfd g hg)
    have hnoPi : ∀ s t', Edge N s n → t' ≠ n → Edge N s t' → (N.node s).isPi = false := by
      intro s t' h1 h2 h3
      cases hp : (N.node s).isPi with
      | false => rfl
      | true =>
        exfalso
        have h4 := ok.piFan s hp
        have h5 := mem_fanouts.2 h1
        have h6 := mem_fanouts.2 h3
        match hfo : N.fanouts s with
        | [] => rw [hfo] at h5; cases h5
        | [u] => rw [hfo, List.mem_singleton] at h5 h6; exact h2 (h6.trans h5.symm)
        | _ :: _ :: _ => rw [hfo] at h4; simp at h4
    have hplaced : ∀ t', (Edge N f t' ∨ Edge N g t') → t' ∈ order → t' ∉ N.pis ++ l → t' ≠ n → False := by
      intro t' he ho' hnd' hne
      rw [ho] at ho'
      rw [List.mem_append, not_or] at hnd'
      rcases List.mem_append.1 ho' with h1 | h1
      · exact hnd'.2 h1
      · rcases List.mem_cons.1 h1 with h2 | h2
        · exact hne h2
        · exact hlater t' hne he h2
    have hcE : ∀ s ∈ N.pis ++ l, st.pos s = st.pos f ∨ st.pos s = st.pos g → ∀ c : Color,
        Edge N s n ∧ ∀ t' ∈ order, t' ∉ N.pis ++ l → t' ≠ n → Edge N s t' → (coloring N order).1 s t' ≠ c := by
      rintro s hs (e | e) c
      · have := hcons f hf s hs e
        subst this
        exact ⟨hf, fun t' h1 h2 h3 h4 => (hplaced t' (.inl h4) h1 h2 h3).elim⟩
      · have := hcons g hg s hs e
        subst this
        exact ⟨hg, fun t' h1 h2 h3 h4 => (hplaced t' (.inr h4) h1 h2 h3).elim⟩
    have hff := front_of h.hP h.front hatf
    have hgf := front_of h.hP h.front hatg
    obtain ⟨fX, fz, fd⟩ := h.X f (hfd f hf)
    obtain ⟨gX, gz, gd⟩ := h.X g (hfd g hg)
    by_cases hsw : (!st.lyt.isEmptyTile (Cart.east m (st.pos f)) || !st.lyt.isEmptyTile (Cart.south m (st.pos g))) = true
    · -- swapped: `g` to the east, `f` to the south
      have c1 := h.claimE g (hfd g hg) n hnm hnd hg hkg
      have c2 := h.claimS f (hfd f hf) n hnm hnd hf hkf
      obtain ⟨hst, hv⟩ := null_spec hZ ok.wire h.hP h.front h.rep hatg hatf c1 c2 (lit n)
      refine ⟨_, _, ?_, advance h hnd hpl rfl rfl (eff_null h.hP h.front hatg hatf c1 c2 h.lx) (by omega) hst ?_ ?_ ?_, ?_, ?_⟩
      · rw [hfs]
        simp only [stepTwo, hcol, if_pos hsw, Loop.setPos]
      · intro a
        rw [hval a, hfs]
        show SVal _ _ _ _ _ (tab (lit n) [N.value a f, N.value a g])
        rw [ok.comm n hnm (by rw [hfs]; rfl)]
        exact hv a _ _ (h.val g (hfd g hg) a) (h.val f (hfd f hf) a)
      · exact fun s hs hh => hcE s hs (.inr hh) _
      · exact fun s hs hh => hcE s hs (.inl hh) _
      · simp only [hcol, gateX]
      · simp only [hcol, gateY]
    · -- both sides are free
      have hsw' := hsw
      rw [Bool.or_eq_true, not_or] at hsw
      simp only [Bool.not_eq_true', Bool.not_eq_false] at hsw
      have c1 : EastClaim G (st.pos f) := by
        apply h.freeE f (hfd f hf) (hnoPi f tf hf htf hetf)
        have hx := hsw.1
        unfold Cart.east at hx
        rw [if_neg (by omega)] at hx
        by_cases hlt : (st.pos f).x < m.X
        · rw [if_pos hlt, fz, fd] at hx
          exact isEmptyTile_z0 h.rep hx
        · rw [if_neg hlt] at hx
          have : st.pos f = ⟨(st.pos f).x, (st.pos f).y, 0, false⟩ := by
            rw [← fz, ← fd]
          rw [this] at hx
          have := isEmptyTile_z0 h.rep hx
          rw [fX] at this
          cases this
      have c2 : SouthClaim G (st.pos g) := by
        apply h.freeS g (hfd g hg) (hnoPi g tg hg htg hetg)
        have hx := hsw.2
        unfold Cart.south at hx
        rw [if_neg (by omega)] at hx
        by_cases hlt : (st.pos g).y < m.Y
        · rw [if_pos hlt, gz, gd] at hx
          exact isEmptyTile_z0 h.rep hx
        · rw [if_neg hlt] at hx
          have : st.pos g = ⟨(st.pos g).x, (st.pos g).y, 0, false⟩ := by
            rw [← gz, ← gd]
          rw [this] at hx
          have := isEmptyTile_z0 h.rep hx
          rw [gX] at this
          cases this
      obtain ⟨hst, hv⟩ := null_spec hZ ok.wire h.hP h.front h.rep hatf hatg c1 c2 (lit n)
      refine ⟨_, _, ?_, advance h hnd hpl rfl rfl (eff_null h.hP h.front hatf hatg c1 c2 h.lx) (by omega) hst ?_ ?_ ?_, ?_, ?_⟩
      · rw [hfs]
        simp only [stepTwo, hcol, if_neg hsw', Loop.setPos]
      · intro a
        rw [hval a, hfs]
        exact hv a _ _ (h.val f (hfd f hf) a) (h.val g (hfd g hg) a)
      · exact fun s hs hh => hcE s hs (.inl hh) _
      · exact fun s hs hh => hcE s hs (.inr hh) _
      · simp only [hcol, gateX]
      · simp only [hcol, gateY]

end

end Verif.PhysicalDesign.Ortho
