import Verif.PhysicalDesign.OrthoSem

/-!
# The occupation of the grid and the wires of the orthogonal physical design
-/
namespace Verif.PhysicalDesign.Ortho

open Verif.Layouts Verif.Clocking Verif.GateLevel

/-- What is on the two layers of a tile: nothing, a horizontal or a vertical wire on the ground layer, anything else. -/
inductive Kind
  | none
  | H
  | V
  | X
  deriving DecidableEq

abbrev Grid := Nat → Nat → Kind

/-- A node that is not an input: its fanins are occupied western and northern neighbours; with one fanin it is a buffer or an inverter. -/
def Good (s : State) (t : Coord) (fn : Nat) (cs : List Coord) : Prop :=
  (∀ c ∈ cs, Nbr c t ∧ s.tileNode c ≠ none) ∧ ((cs.length = 1 ∧ (fn = 2 ∨ fn = 3)) ∨ cs.length = 2)

/-- The grid describes the layout. -/
structure Rep (K : Nat) (G : Grid) (s : State) : Prop where
  wf : WF s
  size : 2 + K ≤ s.size
  z0 : ∀ x y, G x y = .none ↔ s.tileNode ⟨x, y, 0, false⟩ = .none
  z1 : ∀ x y, G x y ≠ .X → s.tileNode ⟨x, y, 1, false⟩ = .none
  z2 : ∀ t : Coord, t.d = false → 1 < t.z → s.tileNode t = .none
  net : ∀ t n, t.d = false → s.tileNode t = some n → n < 2 + K ∨ Good s t (s.nodes n).fn (s.nodes n).children
  pifn : ∀ j, 2 ≤ j → j < 2 + K → (s.nodes j).fn = 2

def hrow (G : Grid) (y a b : Nat) : Grid := fun x y' => if y' = y ∧ a ≤ x ∧ x < b then (if G x y' = .none then .H else .X) else G x y'
def vcol (G : Grid) (x a b : Nat) : Grid := fun x' y => if x' = x ∧ a ≤ y ∧ y < b then (if G x' y = .none then .V else .X) else G x' y
def put (G : Grid) (x y : Nat) : Grid := fun x' y' => if x' = x ∧ y' = y then .X else G x' y'

theorem isEmpty_iff {s : State} (w : WF s) {t : Coord} (ht : t.d = false) : s.isEmptyTile t = true ↔ s.tileNode t = none := by
  unfold State.isEmptyTile State.getNode
  cases e : s.tileNode t with
  | none => simp
  | some n =>
    have := (w.live t n e)
    simp only [Option.getD_some, beq_iff_eq, reduceCtorEq, iff_false]
    rintro rfl
    have := this.1 (by omega)
    rw [ht] at this
    cases this

theorem Rep.fresh_size {K : Nat} {G : Grid} {s : State} (r : Rep K G s) (k : Coord) : s.tileNode k ≠ some s.size := by
  intro h
  have := r.wf.lt k _ h
  omega

/-- What is required of a new node. -/
def New (K : Nat) (s : State) (t : Coord) (n fn : Nat) (cs : List Coord) : Prop :=
  (n < 2 + K ∧ fn = 2) ∨ (2 + K ≤ n ∧ (∀ k, s.tileNode k ≠ some n) ∧ Good s t fn cs)

theorem Rep.occ {K : Nat} {G : Grid} {s : State} (r : Rep K G s) {t : Coord} (hg : G t.x t.y ≠ .none) (hz : t.z = 0) (hd : t.d = false) :
    s.tileNode t ≠ none := by
  obtain ⟨x, y, z, d⟩ := t
  simp only at hg hz hd
  subst hz hd
  exact fun h => hg ((r.z0 x y).2 h)

theorem Rep.net_placed {K : Nat} {G : Grid} {s s' : State} (r : Rep K G s) {t : Coord} {n fn : Nat} {cs : List Coord}
    (p : Placed s s' t n fn cs) (hnew : New K s t n fn cs) :
    (∀ k j, k.d = false → s'.tileNode k = some j → j < 2 + K ∨ Good s' k (s'.nodes j).fn (s'.nodes j).children) ∧
      ∀ j, 2 ≤ j → j < 2 + K → (s'.nodes j).fn = 2 := by
  have hocc : ∀ c, c.d = false → s.tileNode c ≠ none → s'.tileNode c ≠ none := by
    intro c hc h
    rw [p.tile c hc]
    split_ifs
    · simp
    · exact h
  have hgood : ∀ k fn cs, Good s k fn cs → Good s' k fn cs := fun k fn cs h => ⟨fun c hc => ⟨(h.1 c hc).1, hocc c (h.1 c hc).1.1 (h.1 c hc).2⟩, h.2⟩
  constructor
  · intro k j hk hj
    rw [p.tile k hk] at hj
    split_ifs at hj with e
    · injection hj with hj
      subst hj e
      rcases hnew with h | h
      · exact Or.inl h.1
      · right
        rw [p.fn, p.children]
        exact hgood _ _ _ h.2.2
    · rcases r.net k j hk hj with h | h
      · exact Or.inl h
      · by_cases hjn : j = n
        · rcases hnew with h' | h'
          · left; omega
          · exact absurd (hjn ▸ hj) (h'.2.1 k)
        · right
          rw [(p.old j hjn).1, (p.old j hjn).2]
          exact hgood _ _ _ h
  · intro j h2 hj
    by_cases hjn : j = n
    · subst hjn
      rcases hnew with h' | h'
      · rw [p.fn, h'.2]
      · omega
    · rw [(p.old j hjn).1]
      exact r.pifn j h2 hj

/-- A node placed on the ground layer of an empty tile. -/
theorem Rep.put {K : Nat} {G : Grid} {s s' : State} (r : Rep K G s) {x y n fn : Nat} {cs : List Coord}
    (p : Placed s s' ⟨x, y, 0, false⟩ n fn cs) (hs : s.size ≤ s'.size) (k : Kind) (hk : k ≠ .none) (hg : G x y = .none)
    (hnew : New K s ⟨x, y, 0, false⟩ n fn cs) :
    Rep K (fun x' y' => if x' = x ∧ y' = y then k else G x' y') s' := by
  refine ⟨p.wf, by have := r.size; omega, ?_, ?_, ?_, (r.net_placed p hnew).1, (r.net_placed p hnew).2⟩
  · intro a b
    rw [p.tile _ rfl]
    by_cases h : a = x ∧ b = y
    · obtain ⟨rfl, rfl⟩ := h
      simp [hk]
    · have h' : ¬ ((⟨a, b, 0, false⟩ : Coord) = ⟨x, y, 0, false⟩) := by
        intro e; injection e with e1 e2; exact h ⟨e1, e2⟩
      simp only [if_neg h, if_neg h']
      exact r.z0 a b
  · intro a b hX
    rw [p.tile _ rfl, if_neg (by intro e; injection e with _ _ e; cases e)]
    by_cases h : a = x ∧ b = y
    · obtain ⟨rfl, rfl⟩ := h
      exact r.z1 a b (by rw [hg]; simp)
    · simp only [if_neg h] at hX
      exact r.z1 a b hX
  · intro t ht hz
    rw [p.tile _ ht, if_neg (by rintro rfl; simp at hz)]
    exact r.z2 t ht hz

/-- A node placed on the crossing layer. -/
theorem Rep.over {K : Nat} {G : Grid} {s s' : State} (r : Rep K G s) {x y n fn : Nat} {cs : List Coord}
    (p : Placed s s' ⟨x, y, 1, false⟩ n fn cs) (hs : s.size ≤ s'.size) (hg : G x y ≠ .none)
    (hnew : New K s ⟨x, y, 1, false⟩ n fn cs) :
    Rep K (fun x' y' => if x' = x ∧ y' = y then .X else G x' y') s' := by
  refine ⟨p.wf, by have := r.size; omega, ?_, ?_, ?_, (r.net_placed p hnew).1, (r.net_placed p hnew).2⟩
  · intro a b
    rw [p.tile _ rfl, if_neg (show ¬ ((⟨a, b, 0, false⟩ : Coord) = ⟨x, y, 1, false⟩) by intro e; injection e with _ _ e; cases e), ← r.z0]
    by_cases h : a = x ∧ b = y
    · obtain ⟨rfl, rfl⟩ := h
      simp [hg]
    · simp only [if_neg h]
  · intro a b hX
    by_cases h : a = x ∧ b = y
    · simp [h] at hX
    · have h' : ¬ ((⟨a, b, 1, false⟩ : Coord) = ⟨x, y, 1, false⟩) := by
        intro e; injection e with e1 e2; exact h ⟨e1, e2⟩
      rw [p.tile _ rfl, if_neg h']
      simp only [if_neg h] at hX
      exact r.z1 a b hX
  · intro t ht hz
    rw [p.tile _ ht, if_neg (by rintro rfl; simp at hz)]
    exact r.z2 t ht hz

variable {m : Dim} (hZ : m.Z = 1) {tab : Nat → List Bool → Bool} (htab : ∀ b, tab 2 [b] = b) {K : Nat}

/-- A new node is not an input. -/
theorem Placed.only {K : Nat} {s s' : State} {t : Coord} {n fn : Nat} {cs : List Coord} (p : Placed s s' t n fn cs) (hn : 2 + K ≤ n) :
    ∀ k j, k.d = false → s'.tileNode k = some j → s.tileNode k = some j ∨ 2 + K ≤ j := by
  intro k j hk hj
  rw [p.tile k hk] at hj
  split_ifs at hj with h
  · injection hj with hj
    subst hj
    exact .inr hn
  · exact .inl hj

/-- The result of laying a wire that ends at the signal `a'`. -/
structure Wired (tab : Nat → List Bool → Bool) (K : Nat) (G' : Grid) (s : State) (a : Coord) (s' : State) (a' : Coord) : Prop where
  ext : Ext s s'
  rep : Rep K G' s'
  inputs : s'.inputs = s.inputs
  outputs : s'.outputs = s.outputs
  only : ∀ t n, t.d = false → s'.tileNode t = some n → s.tileNode t = some n ∨ 2 + K ≤ n
  occ : s'.tileNode a' ≠ none
  val : ∀ asg b, SVal tab K s asg a b → SVal tab K s' asg a' b

theorem Ext.occ {s s' : State} (h : Ext s s') {t : Coord} (hd : t.d = false) (ho : s.tileNode t ≠ none) : s'.tileNode t ≠ none := by
  cases e : s.tileNode t with
  | none => exact absurd e ho
  | some n => rw [(h t n hd e).1]; simp

/-- The result of several steps. -/
structure Stepped (K : Nat) (G' : Grid) (s s' : State) : Prop where
  ext : Ext s s'
  rep : Rep K G' s'
  inputs : s'.inputs = s.inputs
  outputs : s'.outputs = s.outputs
  only : ∀ t n, t.d = false → s'.tileNode t = some n → s.tileNode t = some n ∨ 2 + K ≤ n

theorem Wired.stepped {tab : Nat → List Bool → Bool} {K : Nat} {G' : Grid} {s : State} {a : Coord} {s' : State} {a' : Coord}
    (w : Wired tab K G' s a s' a') : Stepped K G' s s' := ⟨w.ext, w.rep, w.inputs, w.outputs, w.only⟩

theorem Stepped.trans {K : Nat} {G1 G2 : Grid} {s s1 s2 : State} (h : Stepped K G1 s s1) (k : Stepped K G2 s1 s2) : Stepped K G2 s s2 :=
  ⟨h.ext.trans k.ext, k.rep, by rw [k.inputs, h.inputs], by rw [k.outputs, h.outputs],
    fun t n ht hn => (k.only t n ht hn).elim (h.only t n ht) .inr⟩

include hZ htab

/-- One wire segment. -/
theorem segment {G : Grid} {s : State} (r : Rep K G s) {x y : Nat} (k : Kind) (hk : k ≠ .none)
    (hg : G x y ≠ .X) {a : Coord} (hn : ∀ z, Nbr a ⟨x, y, z, false⟩) (ha : s.tileNode a ≠ none) :
    Wired tab K (fun x' y' => if x' = x ∧ y' = y then (if G x' y' = .none then k else .X) else G x' y') s a
      (s.createGate m 2 [a] (wireTile m s ⟨x, y, 0, false⟩)) (wireTile m s ⟨x, y, 0, false⟩) ∧
    (∃ z ≤ 1, wireTile m s ⟨x, y, 0, false⟩ = ⟨x, y, z, false⟩ ∧ (G x y = .none → z = 0)) := by
  have hnew : ∀ z, New K s ⟨x, y, z, false⟩ s.size 2 [a] := fun z => Or.inr ⟨r.size, r.fresh_size, by simpa using ⟨hn z, ha⟩, Or.inl ⟨rfl, Or.inl rfl⟩⟩
  have hval : ∀ (z : Nat), s.tileNode ⟨x, y, z, false⟩ = none → ∀ asg b, SVal tab K s asg a b →
      SVal tab K (s.createGate m 2 [a] ⟨x, y, z, false⟩) asg ⟨x, y, z, false⟩ b := by
    intro z hz asg b hb
    obtain ⟨p, -, -⟩ := createGate_placed m r.wf 2 [a] (t := ⟨x, y, z, false⟩) rfl hz
    have := SVal.one (tab := tab) (K := K) (a := asg) (s := s.createGate m 2 [a] ⟨x, y, z, false⟩) ⟨x, y, z, false⟩ s.size a b rfl
      (by rw [p.tile _ rfl, if_pos rfl]) r.size p.children (hn z) (hb.mono (p.ext hz (r.fresh_size)))
    rwa [p.fn, htab] at this
  by_cases he : s.tileNode ⟨x, y, 0, false⟩ = none
  · have hw : wireTile m s ⟨x, y, 0, false⟩ = ⟨x, y, 0, false⟩ := by
      unfold wireTile
      rw [if_pos ((isEmpty_iff r.wf rfl).2 he)]
    obtain ⟨p, p2, p3⟩ := createGate_placed m r.wf 2 [a] (t := ⟨x, y, 0, false⟩) rfl he
    have hgn := (r.z0 x y).2 he
    rw [hw]
    refine ⟨⟨p.ext he r.fresh_size, ?_, p.inputs, p3, p.only r.size, by rw [p.tile _ rfl, if_pos rfl]; simp, hval 0 he⟩, 0, by omega, rfl, fun _ => rfl⟩
    have := r.put p (by omega) k hk hgn (hnew 0)
    have hG : (fun x' y' => if x' = x ∧ y' = y then (if G x' y' = .none then k else .X) else G x' y') =
        (fun x' y' => if x' = x ∧ y' = y then k else G x' y') := by
      funext x' y'
      by_cases h : x' = x ∧ y' = y
      · rw [if_pos h, if_pos h, h.1, h.2, if_pos hgn]
      · rw [if_neg h, if_neg h]
    rw [hG]
    exact this
  · have hw : wireTile m s ⟨x, y, 0, false⟩ = ⟨x, y, 1, false⟩ := by
      unfold wireTile
      rw [if_neg (by rw [isEmpty_iff r.wf rfl]; exact he)]
      simp [Cart.above, hZ]
    have he1 := r.z1 x y hg
    have hgn : G x y ≠ .none := fun h => he ((r.z0 x y).1 h)
    obtain ⟨p, p2, p3⟩ := createGate_placed m r.wf 2 [a] (t := ⟨x, y, 1, false⟩) rfl he1
    rw [hw]
    refine ⟨⟨p.ext he1 r.fresh_size, ?_, p.inputs, p3, p.only r.size, by rw [p.tile _ rfl, if_pos rfl]; simp, hval 1 he1⟩, 1, by omega, rfl, fun h => absurd h hgn⟩
    have := r.over p (by omega) hgn (hnew 1)
    have hG : (fun x' y' => if x' = x ∧ y' = y then (if G x' y' = .none then k else .X) else G x' y') =
        (fun x' y' => if x' = x ∧ y' = y then .X else G x' y') := by
      funext x' y'
      by_cases h : x' = x ∧ y' = y
      · rw [if_pos h, if_pos h, h.1, h.2, if_neg hgn]
      · rw [if_neg h, if_neg h]
    rw [hG]
    exact this

theorem wireE_spec (y : Nat) : ∀ (k x0 : Nat) (G : Grid) (s : State) (a : Coord), Rep K G s →
    (∀ x, x0 ≤ x → x < x0 + k → G x y = .none ∨ G x y = .V) → a.d = false → a.z ≤ 1 → a.x + 1 = x0 → a.y = y → s.tileNode a ≠ none →
    Wired tab K (hrow G y x0 (x0 + k)) s a (wireE m y k x0 s a).1 (wireE m y k x0 s a).2 ∧
    (k = 0 → (wireE m y k x0 s a).2 = a) ∧
    (∃ z ≤ 1, (wireE m y k x0 s a).2 = ⟨x0 + k - 1, y, z, false⟩ ∧ (k ≠ 0 → G (x0 + k - 1) y = .none → z = 0)) := by
  intro k
  induction k with
  | zero =>
    intro x0 G s a r _ hd hz hx hy ho
    refine ⟨⟨.refl s, ?_, rfl, rfl, fun _ _ _ h => .inl h, ho, fun _ _ h => h⟩, fun _ => rfl, a.z, hz, ?_, fun h => absurd rfl h⟩
    · have : hrow G y x0 (x0 + 0) = G := by
        funext x y'
        unfold hrow
        rw [if_neg (by omega)]
      rw [this]; exact r
    · show a = _
      obtain ⟨ax, ay, az, ad⟩ := a
      simp only at hd hx hy
      subst hd hy
      congr 1
      omega
  | succ k ih =>
    intro x0 G s a r hg hd hz hx hy ho
    have hg0 := hg x0 (by omega) (by omega)
    obtain ⟨w, z, hz1, ht, hz0⟩ := segment hZ htab r (x := x0) (y := y) .H (by simp) (by rcases hg0 with h | h <;> rw [h] <;> simp) (a := a)
      (fun z => ⟨hd, hz, .inl ⟨hx, hy⟩⟩) ho
    rw [wireE]
    rw [ht] at w ⊢
    have hG' : (fun x' y' => if x' = x0 ∧ y' = y then (if G x' y' = .none then Kind.H else .X) else G x' y') = hrow G y x0 (x0 + 1) := by
      funext x' y'
      unfold hrow
      grind
    rw [hG'] at w
    obtain ⟨w', h0, z', hz', he, hlast⟩ := ih (x0 + 1) (hrow G y x0 (x0 + 1)) _ ⟨x0, y, z, false⟩ w.rep (by
      intro x h1 h2
      unfold hrow
      rw [if_neg (by omega)]
      exact hg x (by omega) (by omega)) rfl hz1 rfl rfl w.occ
    have hG2 : hrow (hrow G y x0 (x0 + 1)) y (x0 + 1) (x0 + 1 + k) = hrow G y x0 (x0 + (k + 1)) := by
      funext x' y'
      unfold hrow
      grind
    rw [hG2] at w'
    refine ⟨⟨w.ext.trans w'.ext, w'.rep, by rw [w'.inputs, w.inputs], by rw [w'.outputs, w.outputs],
      fun k j hk hj => (w'.only k j hk hj).elim (w.only k j hk) .inr, w'.occ, fun asg b h => w'.val asg b (w.val asg b h)⟩, fun h => absurd h (by omega), z', hz', ?_, ?_⟩
    · rw [he]
      congr 1
      omega
    · intro _ hn
      by_cases hk : k = 0
      · have := h0 hk
        rw [he] at this
        injection this with _ _ e3
        rw [e3]
        apply hz0
        subst hk
        simpa using hn
      · apply hlast hk
        unfold hrow
        rw [if_neg (by omega), show x0 + 1 + k - 1 = x0 + (k + 1) - 1 by omega]
        exact hn

theorem wireS_spec (x : Nat) : ∀ (k y0 : Nat) (G : Grid) (s : State) (a : Coord), Rep K G s →
    (∀ y, y0 ≤ y → y < y0 + k → G x y = .none ∨ G x y = .H) → a.d = false → a.z ≤ 1 → a.y + 1 = y0 → a.x = x → s.tileNode a ≠ none →
    Wired tab K (vcol G x y0 (y0 + k)) s a (wireS m x k y0 s a).1 (wireS m x k y0 s a).2 ∧
    (k = 0 → (wireS m x k y0 s a).2 = a) ∧
    (∃ z ≤ 1, (wireS m x k y0 s a).2 = ⟨x, y0 + k - 1, z, false⟩ ∧ (k ≠ 0 → G x (y0 + k - 1) = .none → z = 0)) := by
  intro k
  induction k with
  | zero =>
    intro x0 G s a r _ hd hz hx hy ho
    refine ⟨⟨.refl s, ?_, rfl, rfl, fun _ _ _ h => .inl h, ho, fun _ _ h => h⟩, fun _ => rfl, a.z, hz, ?_, fun h => absurd rfl h⟩
    · have : vcol G x x0 (x0 + 0) = G := by
        funext x y'
        unfold vcol
        rw [if_neg (by omega)]
      rw [this]; exact r
    · show a = _
      obtain ⟨ax, ay, az, ad⟩ := a
      simp only at hd hx hy
      subst hd hy
      congr 1
      omega
  | succ k ih =>
    intro y0 G s a r hg hd hz hy hx ho
    have hg0 := hg y0 (by omega) (by omega)
    obtain ⟨w, z, hz1, ht, hz0⟩ := segment hZ htab r (x := x) (y := y0) .V (by simp) (by rcases hg0 with h | h <;> rw [h] <;> simp) (a := a)
      (fun z => ⟨hd, hz, .inr ⟨hx, hy⟩⟩) ho
    rw [wireS]
    rw [ht] at w ⊢
    have hG' : (fun x' y' => if x' = x ∧ y' = y0 then (if G x' y' = .none then Kind.V else .X) else G x' y') = vcol G x y0 (y0 + 1) := by
      funext x' y'
      unfold vcol
      grind
    rw [hG'] at w
    obtain ⟨w', h0, z', hz', he, hlast⟩ := ih (y0 + 1) (vcol G x y0 (y0 + 1)) _ ⟨x, y0, z, false⟩ w.rep (by
      intro x h1 h2
      unfold vcol
      rw [if_neg (by omega)]
      exact hg x (by omega) (by omega)) rfl hz1 rfl rfl w.occ
    have hG2 : vcol (vcol G x y0 (y0 + 1)) x (y0 + 1) (y0 + 1 + k) = vcol G x y0 (y0 + (k + 1)) := by
      funext x' y'
      unfold vcol
      grind
    rw [hG2] at w'
    refine ⟨⟨w.ext.trans w'.ext, w'.rep, by rw [w'.inputs, w.inputs], by rw [w'.outputs, w.outputs],
      fun k j hk hj => (w'.only k j hk hj).elim (w.only k j hk) .inr, w'.occ, fun asg b h => w'.val asg b (w.val asg b h)⟩, fun h => absurd h (by omega), z', hz', ?_, ?_⟩
    · rw [he]
      congr 1
      omega
    · intro _ hn
      by_cases hk : k = 0
      · have := h0 hk
        rw [he] at this
        injection this with _ _ e3
        rw [e3]
        apply hz0
        subst hk
        simpa using hn
      · apply hlast hk
        unfold vcol
        rw [if_neg (by omega), show y0 + 1 + k - 1 = y0 + (k + 1) - 1 by omega]
        exact hn

/-- A wire from `src` to the column before `X`. -/
theorem wireEast_spec {G : Grid} {s : State} (r : Rep K G s) {src : Coord} (hd : src.d = false) (ho : s.tileNode src ≠ none) (hz : src.z ≤ 1) {X : Nat} (hX : src.x < X)
    (hg : ∀ x, src.x < x → x < X → G x src.y = .none ∨ G x src.y = .V) :
    Wired tab K (hrow G src.y (src.x + 1) X) s src (wireEast m s src X).1 (wireEast m s src X).2 ∧
    (X = src.x + 1 → (wireEast m s src X).2 = src) ∧
    (∃ z ≤ 1, (wireEast m s src X).2 = ⟨X - 1, src.y, z, false⟩ ∧ (src.x + 1 < X → G (X - 1) src.y = .none → z = 0)) := by
  obtain ⟨w, h0, z, hz', he, hl⟩ := wireE_spec hZ htab (K := K) src.y (X - (src.x + 1)) (src.x + 1) G s src r
    (fun x h1 h2 => hg x (by omega) (by omega)) hd hz rfl rfl ho
  have hX' : src.x + 1 + (X - (src.x + 1)) = X := by omega
  rw [hX'] at w he hl
  exact ⟨w, fun h => h0 (by omega), z, hz', he, fun h1 h2 => hl (by omega) h2⟩

/-- A wire from `src` to the row before `Y`. -/
theorem wireSouth_spec {G : Grid} {s : State} (r : Rep K G s) {src : Coord} (hd : src.d = false) (ho : s.tileNode src ≠ none) (hz : src.z ≤ 1) {Y : Nat} (hY : src.y < Y)
    (hg : ∀ y, src.y < y → y < Y → G src.x y = .none ∨ G src.x y = .H) :
    Wired tab K (vcol G src.x (src.y + 1) Y) s src (wireSouth m s src Y).1 (wireSouth m s src Y).2 ∧
    (Y = src.y + 1 → (wireSouth m s src Y).2 = src) ∧
    (∃ z ≤ 1, (wireSouth m s src Y).2 = ⟨src.x, Y - 1, z, false⟩ ∧ (src.y + 1 < Y → G src.x (Y - 1) = .none → z = 0)) := by
  obtain ⟨w, h0, z, hz', he, hl⟩ := wireS_spec hZ htab (K := K) src.x (Y - (src.y + 1)) (src.y + 1) G s src r
    (fun y h1 h2 => hg y (by omega) (by omega)) hd hz rfl rfl ho
  have hY' : src.y + 1 + (Y - (src.y + 1)) = Y := by omega
  rw [hY'] at w he hl
  exact ⟨w, fun h => h0 (by omega), z, hz', he, fun h1 h2 => hl (by omega) h2⟩

omit hZ htab in
/-- A gate with one fanin on an empty tile. -/
theorem gate1_spec {G : Grid} {s : State} (r : Rep K G s) {x y : Nat} (hg : G x y = .none) {lit : Nat} (hlit : lit = 2 ∨ lit = 3) {a : Coord}
    (hn : Nbr a ⟨x, y, 0, false⟩) (ho : s.tileNode a ≠ none) :
    let s' := s.createGate m lit [a] ⟨x, y, 0, false⟩
    Stepped K (put G x y) s s' ∧
      ∀ asg b, SVal tab K s asg a b → SVal tab K s' asg ⟨x, y, 0, false⟩ (tab lit [b]) := by
  have he := (r.z0 x y).1 hg
  obtain ⟨p, p2, p3⟩ := createGate_placed m r.wf lit [a] (t := ⟨x, y, 0, false⟩) rfl he
  have hext := p.ext he r.fresh_size
  refine ⟨⟨hext, r.put p (by omega) .X (by simp) hg (.inr ⟨r.size, r.fresh_size, by simpa using ⟨hn, ho⟩, .inl ⟨rfl, hlit⟩⟩), p.inputs, p3, p.only r.size⟩, ?_⟩
  intro asg b hb
  have := SVal.one (tab := tab) (K := K) (a := asg) (s := s.createGate m lit [a] ⟨x, y, 0, false⟩) ⟨x, y, 0, false⟩ s.size a b rfl
    (by rw [p.tile _ rfl, if_pos rfl]) r.size p.children hn (hb.mono hext)
  rwa [p.fn] at this

omit hZ htab in
/-- A gate with two fanins on an empty tile. -/
theorem gate2_spec {G : Grid} {s : State} (r : Rep K G s) {x y : Nat} (hg : G x y = .none) (lit : Nat) {a a' : Coord}
    (hn : Nbr a ⟨x, y, 0, false⟩) (hn' : Nbr a' ⟨x, y, 0, false⟩) (ho : s.tileNode a ≠ none) (ho' : s.tileNode a' ≠ none) :
    let s' := s.createGate m lit [a, a'] ⟨x, y, 0, false⟩
    Stepped K (put G x y) s s' ∧
      ∀ asg b b', SVal tab K s asg a b → SVal tab K s asg a' b' → SVal tab K s' asg ⟨x, y, 0, false⟩ (tab lit [b, b']) := by
  have he := (r.z0 x y).1 hg
  obtain ⟨p, p2, p3⟩ := createGate_placed m r.wf lit [a, a'] (t := ⟨x, y, 0, false⟩) rfl he
  have hext := p.ext he r.fresh_size
  refine ⟨⟨hext, r.put p (by omega) .X (by simp) hg (.inr ⟨r.size, r.fresh_size, by simpa using ⟨⟨hn, ho⟩, hn', ho'⟩, .inr rfl⟩), p.inputs, p3, p.only r.size⟩, ?_⟩
  intro asg b b' hb hb'
  have := SVal.two (tab := tab) (K := K) (a := asg) (s := s.createGate m lit [a, a'] ⟨x, y, 0, false⟩) ⟨x, y, 0, false⟩ s.size a a' b b' rfl
    (by rw [p.tile _ rfl, if_pos rfl]) r.size p.children hn hn' (hb.mono hext) (hb'.mono hext)
  rwa [p.fn] at this

end Verif.PhysicalDesign.Ortho
