import Verif.Io.FglLemmas

/-!
# The loop that reads the gates of an FGL file
-/
namespace Verif.Fgl

open Verif.Layouts Verif.Clocking Verif.GateLevel Verif.TruthTables Verif.PhysicalDesign

/-- `R` holds the nodes `done` of `L`, the `i`-th of them as node `i + 2`. -/
structure Built (tp : Topo) (L : Lyt) (done : List Nat) (R : Lyt) : Prop where
  wf : WF R.st
  size : R.st.size = 2 + done.length
  cache : layoutCache <+: R.cache
  tile : ∀ (i n : Nat), done[i]? = some n → R.st.tileNode (L.st.getTile n) = some (2 + i)
  only : ∀ k : Coord, k.d = false → ∀ j, R.st.tileNode k = some j → ∃ (i n : Nat), done[i]? = some n ∧ k = L.st.getTile n
  fn : ∀ (i n : Nat), done[i]? = some n → (∃ f, L.cache.lookup (L.st.nodes n).fn = some f ∧ R.cache.lookup (R.st.nodes (2 + i)).fn = some f) ∧
    ((L.st.nodes n).fn < 16 → (R.st.nodes (2 + i)).fn = (L.st.nodes n).fn)
  children : ∀ (i n : Nat), done[i]? = some n → n ∉ L.st.inputs → (R.st.nodes (2 + i)).children = L.reads tp n
  inputs : R.st.inputs = (List.range (min done.length L.st.inputs.length)).map (2 + ·)
  outputs : R.st.outputs = (done.filter L.st.isPo).map L.st.getTile
  names : ∀ (i n : Nat), done[i]? = some n → (L.st.isPi n ∨ L.st.isPo n) → R.name (2 + i) = L.name n

section
variable {tp : Topo} {L : Lyt} {order : List Nat} (H : Writable tp L order)
include H

theorem Writable.nodeTile {t : Coord} {n : Nat} (hn : L.st.tileNode t = some n) : L.st.getNode t = n ∧ L.st.getTile n = t :=
  ⟨by simp [State.getNode, hn], by simp [State.getTile, (H.wf.inv _ _).1 hn]⟩

theorem Writable.two {t : Coord} {n : Nat} (ht : t.d = false) (hn : L.st.tileNode t = some n) : 2 ≤ n := by
  by_contra hc
  have := (H.wf.live t n hn).1 (by omega)
  rw [ht] at this
  cases this

theorem Writable.placed {n : Nat} (hn : n ∈ L.st.inputs ++ order) : ∃ t, t.d = false ∧ L.st.tileNode t = some n := by
  rcases List.mem_append.1 hn with h | h
  · exact (H.pi n h).1
  · exact (H.gate n h).1

theorem Writable.tile_inj {n n' : Nat} (hn : n ∈ L.st.inputs ++ order) (hn' : n' ∈ L.st.inputs ++ order)
    (e : L.st.getTile n = L.st.getTile n') : n = n' := by
  obtain ⟨t, -, ht⟩ := H.placed hn
  obtain ⟨t', -, ht'⟩ := H.placed hn'
  rw [(H.nodeTile ht).2, (H.nodeTile ht').2] at e
  subst e
  rw [ht] at ht'
  exact Option.some.inj ht'

theorem Writable.isPo_iff {t : Coord} {n : Nat} (ht : t.d = false) (hn : L.st.tileNode t = some n) : L.st.isPo n = true ↔ t ∈ L.st.outputs := by
  unfold State.isPo
  rw [List.any_eq_true]
  constructor
  · rintro ⟨p, hp, e⟩
    rw [beq_iff_eq] at e
    obtain ⟨hd, k, hk, -⟩ := H.po p hp
    have h1 := H.nodeTile hk
    rw [h1.1] at e
    subst e
    rw [← (H.nodeTile hn).2, h1.2]
    exact hp
  · intro hp
    exact ⟨t, hp, by rw [(H.nodeTile hn).1, beq_self_eq_true]⟩

/-- A tile that is read is the tile of its node. -/
theorem Writable.read_node {n : Nat} (hn : n ∈ order) {c : Coord} (hc : c ∈ L.reads tp n) :
    L.st.getTile (L.st.getNode c) = c ∧ 2 ≤ L.st.getNode c ∧ L.st.tileNode c = some (L.st.getNode c) := by
  obtain ⟨⟨t, htd, ht⟩, hrd, -⟩ := H.gate n hn
  have hcd := hrd c hc
  unfold Lyt.reads State.fanins at hc
  rw [if_neg (by have := H.two htd ht; omega)] at hc
  simp only [List.mem_map, List.mem_filter] at hc
  obtain ⟨ch, -, e'⟩ := hc
  cases hk : L.st.tileNode ch with
  | none =>
    rw [show L.st.getNode ch = 0 by simp [State.getNode, hk]] at e'
    rw [← e'] at hcd
    unfold State.getTile at hcd
    cases h0 : L.st.nodeTile 0 with
    | none => rw [h0] at hcd; simp [const0] at hcd
    | some t0 =>
      rw [h0] at hcd
      have := (H.wf.live t0 0 ((H.wf.inv _ _).2 h0)).1 (by omega)
      simp only [Option.getD_some] at hcd
      rw [hcd] at this
      cases this
  | some k =>
    obtain ⟨h1, h2⟩ := H.nodeTile hk
    rw [h1, h2] at e'
    subst e'
    rw [h1, h2]
    exact ⟨rfl, H.two hcd hk, hk⟩

/-- Tiles that are read are adjacent, and clocked before. -/
theorem Writable.read_adj {n : Nat} (hn : n ∈ order) {c : Coord} (hc : c ∈ L.reads tp n) :
    Topo.isAdjacentElevationOf tp L.dim (L.st.getTile n) c = true ∧ isIncomingClocked L.cs (L.st.getTile n) c = true := by
  obtain ⟨⟨t, htd, ht⟩, -⟩ := H.gate n hn
  unfold Lyt.reads State.fanins at hc
  rw [if_neg (by have := H.two htd ht; omega)] at hc
  simp only [List.mem_map, List.mem_filter] at hc
  obtain ⟨ch, ⟨-, hp⟩, rfl⟩ := hc
  simpa using hp

/-- Reading one more node. -/
theorem Built.step {done : List Nat} {R R' : Lyt} (h : Built tp L done R) {n lit : Nat} {cs : List Coord}
    (hsub : ∀ k ∈ done, k ∈ L.st.inputs ++ order) (hn : n ∈ L.st.inputs ++ order) (hnew : n ∉ done)
    (wf : WF R'.st) (tile : ∀ k : Coord, k.d = false → R'.st.tileNode k = if k = L.st.getTile n then some R.st.size else R.st.tileNode k)
    (old : ∀ k, k ≠ R.st.size → (R'.st.nodes k).fn = (R.st.nodes k).fn ∧ (R'.st.nodes k).children = (R.st.nodes k).children)
    (fn : (R'.st.nodes R.st.size).fn = lit) (children : (R'.st.nodes R.st.size).children = cs) (size : R'.st.size = R.st.size + 1)
    (cache : R.cache <+: R'.cache) (hlit : ∃ f, L.cache.lookup (L.st.nodes n).fn = some f ∧ R'.cache.lookup lit = some f)
    (hlit' : (L.st.nodes n).fn < 16 → lit = (L.st.nodes n).fn) (hcs : n ∉ L.st.inputs → cs = L.reads tp n)
    (inputs : R'.st.inputs = (List.range (min (done.length + 1) L.st.inputs.length)).map (2 + ·))
    (outputs : R'.st.outputs = R.st.outputs ++ if L.st.isPo n then [L.st.getTile n] else [])
    (names : ∀ k, k ≠ R.st.size → R'.name k = R.name k) (name : (L.st.isPi n ∨ L.st.isPo n) → R'.name R.st.size = L.name n) :
    Built tp L (done ++ [n]) R' := by
  have split : ∀ (i k : Nat), (done ++ [n])[i]? = some k → (done[i]? = some k ∧ i < done.length) ∨ (i = done.length ∧ k = n) := by
    intro i k hk
    by_cases hi : i < done.length
    · rw [List.getElem?_append_left hi] at hk
      exact Or.inl ⟨hk, hi⟩
    · rw [List.getElem?_append_right (by omega)] at hk
      obtain ⟨h1, h2⟩ := List.getElem?_eq_some_iff.1 hk
      rw [List.length_singleton] at h1
      refine Or.inr ⟨by omega, ?_⟩
      rw [← h2]
      simp
  have last : (done ++ [n])[done.length]? = some n := by simp
  have keep : ∀ (i k : Nat), done[i]? = some k → (done ++ [n])[i]? = some k := by
    intro i k hk
    rw [List.getElem?_append_left (List.getElem?_eq_some_iff.1 hk).1]
    exact hk
  obtain ⟨t, htd, ht⟩ := H.placed hn
  have hT := (H.nodeTile ht).2
  refine ⟨wf, ?_, h.cache.trans cache, ?_, ?_, ?_, ?_, ?_, ?_, ?_⟩
  · rw [size, h.size, List.length_append, List.length_singleton]
    omega
  · intro i k hk
    rcases split i k hk with ⟨hk', hi⟩ | ⟨rfl, rfl⟩
    · have hkm := hsub k (List.mem_of_getElem? hk')
      obtain ⟨t', ht'd, ht'⟩ := H.placed hkm
      rw [tile _ (by rw [(H.nodeTile ht').2]; exact ht'd), if_neg, h.tile i k hk']
      intro e
      have := H.tile_inj hkm hn e
      rw [this] at hk'
      exact hnew (List.mem_of_getElem? hk')
    · rw [tile _ (by rw [hT]; exact htd), if_pos rfl, h.size]
  · intro k hk j hj
    rw [tile k hk] at hj
    split_ifs at hj with e
    · exact ⟨done.length, n, last, e⟩
    · obtain ⟨i, n', h1, h2⟩ := h.only k hk j hj
      exact ⟨i, n', keep _ _ h1, h2⟩
  · intro i k hk
    rcases split i k hk with ⟨hk, hi⟩ | ⟨rfl, rfl⟩
    · have hne : 2 + i ≠ R.st.size := by rw [h.size]; omega
      rw [(old _ hne).1]
      obtain ⟨⟨f, h1, h2⟩, h3⟩ := h.fn i k hk
      exact ⟨⟨f, h1, lookup_prefix cache h2⟩, h3⟩
    · rw [← h.size, fn]
      exact ⟨hlit, hlit'⟩
  · intro i k hk hi'
    rcases split i k hk with ⟨hk, hi⟩ | ⟨rfl, rfl⟩
    · have hne : 2 + i ≠ R.st.size := by rw [h.size]; omega
      rw [(old _ hne).2]
      exact h.children i k hk hi'
    · rw [← h.size, children]
      exact hcs hi'
  · rw [inputs, List.length_append, List.length_singleton]
  · rw [outputs, h.outputs, List.filter_append, List.map_append]
    congr 1
    cases hp : L.st.isPo n <;> simp [hp]
  · intro i k hk hp
    rcases split i k hk with ⟨hk, hi⟩ | ⟨rfl, rfl⟩
    · rw [names _ (by rw [h.size]; omega)]
      exact h.names i k hk hp
    · rw [← h.size]
      exact name hp

/-- A tile whose node is not read yet is empty. -/
theorem Built.empty {done : List Nat} {R : Lyt} (h : Built tp L done R) {n : Nat}
    (hsub : ∀ k ∈ done, k ∈ L.st.inputs ++ order) (hn : n ∈ L.st.inputs ++ order) (hnew : n ∉ done) : R.st.tileNode (L.st.getTile n) = none := by
  obtain ⟨t, htd, ht⟩ := H.placed hn
  cases e : R.st.tileNode (L.st.getTile n) with
  | none => rfl
  | some j =>
    obtain ⟨i, n', h1, h2⟩ := h.only _ (by rw [(H.nodeTile ht).2]; exact htd) j e
    have hm := List.mem_of_getElem? h1
    have := H.tile_inj hn (hsub n' hm) h2
    subst this
    exact absurd hm hnew

omit H in
theorem Built.signal {done : List Nat} {R : Lyt} (h : Built tp L done R) {n : Nat} (hn : n ∈ done) :
    signal R (L.st.getTile n) = L.st.getTile n := by
  obtain ⟨i, hi⟩ := List.mem_iff_getElem?.1 hn
  have := h.tile i n hi
  unfold Fgl.signal
  generalize L.st.getTile n = t at *
  simp [State.getNode, this, State.getTile, (h.wf.inv _ _).1 this]

omit H in
theorem isPi_iff (n : Nat) : L.st.isPi n = true ↔ n ∈ L.st.inputs := by
  unfold State.isPi
  simp

theorem Writable.pi_not_po {n : Nat} (hn : n ∈ L.st.inputs) : L.st.isPo n = false := by
  obtain ⟨⟨t, htd, ht⟩, -⟩ := H.pi n hn
  cases e : L.st.isPo n with
  | false => rfl
  | true =>
    have hp := (H.isPo_iff htd ht).1 e
    obtain ⟨-, k, hk, hk', -⟩ := H.po t hp
    rw [ht] at hk
    injection hk with hk
    subst hk
    exact absurd hn hk'

/-- Reading an input. -/
theorem Built.pi {done : List Nat} {R : Lyt} (h : Built tp L done R) {n id : Nat} {rest : List Nat} (e : L.st.inputs = done ++ n :: rest) :
    ∃ R', place R (writePi L id n) = some R' ∧ Built tp L (done ++ [n]) R' ∧ R'.dim = R.dim ∧ R'.cs = R.cs ∧ R'.title = R.title := by
  have hmem : n ∈ L.st.inputs := by rw [e]; simp
  have hsub : ∀ k ∈ done, k ∈ L.st.inputs ++ order := fun k hk => List.mem_append_left _ (by rw [e]; simp [hk])
  have hnd := H.inputs
  rw [e, List.nodup_append] at hnd
  have hnew : n ∉ done := fun hc => hnd.2.2 n hc n (by simp) rfl
  have hn := List.mem_append_left order hmem
  obtain ⟨⟨t, htd, ht⟩, hfn, -⟩ := H.pi n hmem
  have hT := (H.nodeTile ht).2
  have hloc : plain (L.st.getTile n) = L.st.getTile n := plain_eq (by rw [hT]; exact htd)
  refine ⟨R.pi (L.name n) (L.st.getTile n), ?_, ?_, rfl, rfl, rfl⟩
  · unfold place writePi
    simp [hloc]
  obtain ⟨a1, a2, a3, a4, a5, a6, a7, a8⟩ := Hexa.createPi_placed R.dim h.wf (t := L.st.getTile n) (by rw [hT]; exact htd) (h.empty H hsub hn hnew)
  have hlen : done.length < L.st.inputs.length := by rw [e]; simp
  refine h.step H (R' := R.pi (L.name n) (L.st.getTile n)) hsub hn hnew a1 a2 a3 a4 a5 a7 (List.prefix_refl _) ?_ (fun _ => hfn.symm)
    (fun hc => absurd hmem hc) ?_ ?_ ?_ ?_
  · rw [hfn]
    obtain ⟨l, hl⟩ := H.cache
    have h1 := lookup_layout (c := L.cache) ⟨l, hl.symm⟩ (lit := 2) (by omega)
    have h2 := lookup_layout h.cache (lit := 2) (by omega)
    have h3 : layoutCache.lookup 2 = some ⟨1, 2⟩ := by decide +kernel
    exact ⟨_, h1.trans h3, h2.trans h3⟩
  · show (R.st.createPi R.dim (L.st.getTile n)).inputs = _
    rw [a6, h.inputs, h.size, Nat.min_eq_left (by omega), Nat.min_eq_left (by omega), List.range_succ, List.map_append]
    rfl
  · show (R.st.createPi R.dim (L.st.getTile n)).outputs = _
    rw [a8, H.pi_not_po hmem]
    simp
  · intro k hk
    show (if k = R.st.size then _ else _) = _
    rw [if_neg hk]
  · intro _
    show (if R.st.size = R.st.size then _ else _) = _
    rw [if_pos rfl]

/-- Reading a gate or an output. -/
theorem Built.gate {done : List Nat} {R : Lyt} (h : Built tp L (L.st.inputs ++ done) R) {n id : Nat} {rest : List Nat} (T : TopoView tp L order)
    (e : order = done ++ n :: rest) :
    ∃ R', place R (writeGate tp L id n) = some R' ∧ Built tp L (L.st.inputs ++ (done ++ [n])) R' ∧ R'.dim = R.dim ∧ R'.cs = R.cs ∧ R'.title = R.title := by
  have hmem : n ∈ order := by rw [e]; simp
  have hsub : ∀ k ∈ L.st.inputs ++ done, k ∈ L.st.inputs ++ order := by
    intro k hk
    rcases List.mem_append.1 hk with hk | hk
    · exact List.mem_append_left _ hk
    · exact List.mem_append_right _ (by rw [e]; simp [hk])
  have hni : n ∉ L.st.inputs := ((T.mem n).1 hmem).1
  have hnd := T.nodup
  rw [e, List.nodup_append] at hnd
  have hnew : n ∉ L.st.inputs ++ done := by
    intro hc
    rcases List.mem_append.1 hc with hc | hc
    · exact hni hc
    · exact hnd.2.2 n hc n (by simp) rfl
  have hn := List.mem_append_right L.st.inputs hmem
  obtain ⟨⟨t, htd, ht⟩, hrd, f, hf, hw, hlen, h1⟩ := H.gate n hmem
  have hT := (H.nodeTile ht).2
  have hloc : plain (L.st.getTile n) = L.st.getTile n := plain_eq (by rw [hT]; exact htd)
  have hrds : L.st.fanins L.dim tp L.cs true (L.st.getNode (L.st.getTile n)) = L.reads tp n := by rw [hT, (H.nodeTile ht).1]; rfl
  -- the fanins are there
  have hsig : (L.reads tp n).map (Fgl.signal R) = L.reads tp n := by
    conv_rhs => rw [← List.map_id (L.reads tp n)]
    refine List.map_congr_left fun c hc => ?_
    have hcd := hrd c hc
    have hpos : order[done.length]? = some n := by rw [e]; simp
    have hct := H.read_node hmem hc
    have hin : L.st.getNode c ∈ L.st.inputs ++ done := by
      rcases T.before done.length n hpos c hc with h0 | h0 | ⟨j, hj, hj'⟩
      · omega
      · exact List.mem_append_left _ h0
      · rw [e, List.getElem?_append_left hj] at hj'
        exact List.mem_append_right _ (List.mem_of_getElem? hj')
    have := h.signal hin
    rw [hct.1] at this
    exact this
  have hinc : (writeGate tp L id n).incoming.map (Fgl.signal R) = L.reads tp n := by
    unfold writeGate
    simp only [hrds]
    rw [map_plain hrd, hsig]
  have hlocr : (writeGate tp L id n).loc = L.st.getTile n := by unfold writeGate; simp only; exact hloc
  have hty : (writeGate tp L id n).type = typeOf L n (L.reads tp n).length := by unfold writeGate; simp only [hrds]
  have hmin : R.st.inputs = (List.range (min ((L.st.inputs ++ done).length + 1) L.st.inputs.length)).map (2 + ·) := by
    rw [h.inputs, List.length_append, Nat.min_eq_right (by omega), Nat.min_eq_right (by omega)]
  obtain ⟨l, hl⟩ := H.cache
  have hcL : layoutCache <+: L.cache := ⟨l, hl.symm⟩
  have hemp := h.empty H hsub hn hnew
  have hTd : (L.st.getTile n).d = false := by rw [hT]; exact htd
  rw [← List.append_assoc]
  cases hpo : L.st.isPo n with
  | false =>
    obtain ⟨lit, cache, hp, h2, h3, h4⟩ := place_gate (R := R) hcL h.cache hf hw hlen h1 hpo hty hinc
    rw [hlocr] at hp
    refine ⟨_, hp, ?_, rfl, rfl, rfl⟩
    obtain ⟨P, hs, ho⟩ := Ortho.createGate_placed (m := R.dim) h.wf lit (L.reads tp n) hTd hemp
    refine h.step H (R' := { R with st := R.st.createGate R.dim lit (L.reads tp n) (L.st.getTile n), cache := cache }) hsub hn hnew P.wf P.tile P.old
      P.fn P.children hs h4 ⟨f, hf, h2⟩ h3 (fun _ => rfl) ?_ ?_ (fun _ _ => rfl) ?_
    · show (R.st.createGate R.dim lit (L.reads tp n) (L.st.getTile n)).inputs = _
      rw [P.inputs, hmin]
    · show (R.st.createGate R.dim lit (L.reads tp n) (L.st.getTile n)).outputs = _
      rw [ho, hpo]
      simp
    · rintro (hc | hc)
      · exact absurd ((isPi_iff n).1 hc) hni
      · rw [hpo] at hc; cases hc
  | true =>
    have hpt := (H.isPo_iff htd ht).1 hpo
    obtain ⟨-, k, hk, -, hfn, -⟩ := H.po t hpt
    rw [ht] at hk
    injection hk with hk
    subst hk
    have hv1 : f.vars = 1 := by
      have := layout_vars 2 (by omega)
      rw [← lookup_layout hcL (by omega), ← hfn, hf] at this
      simpa [hfn] using this
    obtain ⟨a, ha⟩ : ∃ a, L.reads tp n = [a] := List.length_eq_one_iff.1 (hlen.trans hv1)
    have hname : (writeGate tp L id n).name = L.name n := by
      unfold writeGate
      simp only [hrds]
      rw [if_pos ⟨by rw [ha]; rfl, hpo⟩]
    refine ⟨R.po a (L.name n) (L.st.getTile n), ?_, ?_, rfl, rfl, rfl⟩
    · unfold place
      rw [hinc, ha]
      simp only
      rw [if_pos, hname, hlocr]
      rw [hty, ha, typeOf]
      simp [hpo]
    obtain ⟨P, hs, ho⟩ := Ortho.createPo_placed (m := R.dim) h.wf a hTd hemp
    refine h.step H (R' := R.po a (L.name n) (L.st.getTile n)) hsub hn hnew P.wf P.tile P.old
      P.fn P.children hs (List.prefix_refl _) ?_ (fun _ => hfn.symm) (fun _ => ha.symm) ?_ ?_ ?_ ?_
    · rw [hfn]
      have h1 := lookup_layout hcL (lit := 2) (by omega)
      have h2 := lookup_layout h.cache (lit := 2) (by omega)
      have h3 : layoutCache.lookup 2 = some ⟨1, 2⟩ := by decide +kernel
      exact ⟨_, h1.trans h3, h2.trans h3⟩
    · show (R.st.createPo R.dim a (L.st.getTile n)).inputs = _
      rw [P.inputs, hmin]
    · show (R.st.createPo R.dim a (L.st.getTile n)).outputs = _
      rw [ho, hpo]
      simp
    · intro k hk
      show (if k = R.st.size then _ else _) = _
      rw [if_neg hk]
    · intro _
      show (if R.st.size = R.st.size then _ else _) = _
      rw [if_pos rfl]

/-! ## The loops -/

omit H in
theorem placeAll_append {l l' : List Rec} {R R' : Lyt} (h : placeAll l R = some R') : placeAll (l ++ l') R = placeAll l' R' := by
  induction l generalizing R with
  | nil => simp only [placeAll, Option.some.injEq] at h; rw [h]; rfl
  | cons r l ih =>
    rw [placeAll] at h
    rw [List.cons_append, placeAll]
    cases hp : place R r with
    | none => rw [hp] at h; cases h
    | some R1 => rw [hp] at h; exact ih h

theorem pi_loop : ∀ (rest done : List Nat) (R : Lyt) (g : Nat → Nat), L.st.inputs = done ++ rest → Built tp L done R →
    ∃ R', placeAll (rest.mapIdx fun i n => writePi L (g i) n) R = some R' ∧ Built tp L L.st.inputs R' ∧ R'.dim = R.dim ∧ R'.cs = R.cs ∧ R'.title = R.title
  | [], done, R, _, e, h => ⟨R, rfl, by rw [e, List.append_nil]; exact h, rfl, rfl, rfl⟩
  | n :: rest, done, R, g, e, h => by
    obtain ⟨R1, hp, h1, e1, e2, e3⟩ := h.pi H (id := g 0) e
    obtain ⟨R2, hp2, h2, f1, f2, f3⟩ := pi_loop rest (done ++ [n]) R1 (fun i => g (i + 1)) (by rw [e]; simp) h1
    refine ⟨R2, ?_, h2, f1.trans e1, f2.trans e2, f3.trans e3⟩
    rw [List.mapIdx_cons, placeAll, hp]
    exact hp2

theorem gate_loop (T : TopoView tp L order) : ∀ (rest done : List Nat) (R : Lyt) (g : Nat → Nat), order = done ++ rest → Built tp L (L.st.inputs ++ done) R →
    ∃ R', placeAll (rest.mapIdx fun i n => writeGate tp L (g i) n) R = some R' ∧ Built tp L (L.st.inputs ++ order) R' ∧ R'.dim = R.dim ∧ R'.cs = R.cs ∧
      R'.title = R.title
  | [], done, R, _, e, h => ⟨R, rfl, by rw [e, List.append_nil]; exact h, rfl, rfl, rfl⟩
  | n :: rest, done, R, g, e, h => by
    obtain ⟨R1, hp, h1, e1, e2, e3⟩ := h.gate H (id := g 0) T e
    obtain ⟨R2, hp2, h2, f1, f2, f3⟩ := gate_loop T rest (done ++ [n]) R1 (fun i => g (i + 1)) (by rw [e]; simp) h1
    refine ⟨R2, ?_, h2, f1.trans e1, f2.trans e2, f3.trans e3⟩
    rw [List.mapIdx_cons, placeAll, hp]
    exact hp2

end

end Verif.Fgl
