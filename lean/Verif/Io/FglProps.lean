import Verif.Io.FglLoop
import Verif.Clocking.Lemmas
import Mathlib.Data.List.Sort
import Mathlib.Data.List.Nodup

/-!
# Properties of writing and reading FGL files
-/
namespace Verif.Fgl

open Verif.Layouts Verif.Clocking Verif.GateLevel Verif.TruthTables Verif.PhysicalDesign

section
variable {tp : Topo} {L : Lyt} {order : List Nat} (H : Writable tp L order) (T : TopoView tp L order)

theorem writeGates_ids : ((writeGates tp L order).map Rec.id) = List.range (L.st.inputs.length + order.length) := by
  unfold writeGates
  rw [List.map_append]
  apply List.ext_getElem?
  intro i
  rw [List.getElem?_append]
  simp only [List.length_map, List.length_mapIdx, List.getElem?_map, List.getElem?_mapIdx]
  by_cases h1 : i < L.st.inputs.length
  · rw [if_pos h1, List.getElem?_eq_getElem h1, List.getElem?_range (by omega)]
    rfl
  · rw [if_neg h1]
    by_cases h2 : i < L.st.inputs.length + order.length
    · rw [List.getElem?_eq_getElem (by omega : i - L.st.inputs.length < order.length), List.getElem?_range h2]
      simp only [Option.map_some, writeGate, Option.some.injEq]
      omega
    · rw [List.getElem?_eq_none (by omega), List.getElem?_eq_none (by rw [List.length_range]; omega)]
      rfl

theorem writeGates_sorted : (writeGates tp L order).mergeSort (fun a b => decide (a.id ≤ b.id)) = writeGates tp L order := by
  apply List.mergeSort_of_pairwise
  have h : ((writeGates tp L order).map Rec.id).Pairwise (· < ·) := by
    rw [writeGates_ids]
    exact List.pairwise_lt_range
  rw [List.pairwise_map] at h
  exact h.imp fun hab => decide_eq_true (Nat.le_of_lt hab)

include H

theorem Writable.disjoint (T : TopoView tp L order) : (L.st.inputs ++ order).Nodup := by
  rw [List.nodup_append]
  refine ⟨H.inputs, T.nodup, ?_⟩
  rintro a ha b hb rfl
  exact ((T.mem a).1 hb).1 ha

theorem typeOf_blank {n : Nat} (hn : n ∈ order) : blank (typeOf L n (L.reads tp n).length) = false ∧
    (typeOf L n (L.reads tp n).length = "PI".toList → False) ∧
    (typeOf L n (L.reads tp n).length = "PO".toList → L.st.isPo n = true ∧ (L.reads tp n).length = 1) := by
  obtain ⟨-, -, f, hf, -⟩ := H.gate n hn
  have hx : hexOf L n = toHex f := by unfold hexOf; rw [hf]
  have h1 := isHex_toHex f
  have h2 := blank_toHex f
  have h3 := hex_ne h1 "PI" (by decide)
  have h4 := hex_ne h1 "PO" (by decide)
  have key : ∀ s : List Char, (s = toHex f ∨ s ∈ keywords ∧ s ≠ "PI".toList ∧ s ≠ "PO".toList) → blank s = false ∧ (s = "PI".toList → False) ∧
      (s = "PO".toList → L.st.isPo n = true ∧ (L.reads tp n).length = 1) := by
    rintro s (rfl | ⟨hk, hk1, hk2⟩)
    · exact ⟨h2, h3, fun hc => absurd hc h4⟩
    · exact ⟨(keywords_hex s hk).2, hk1, fun hc => absurd hc hk2⟩
  generalize (L.reads tp n).length = k at *
  unfold typeOf
  simp only
  by_cases k1 : k = 1
  · rw [if_pos k1]
    cases hp : L.st.isPo n with
    | true =>
      rw [if_pos rfl]
      exact ⟨by decide, fun hc => absurd hc (by decide), fun _ => ⟨rfl, k1⟩⟩
    | false =>
      rw [hp] at key
      rw [if_neg (by decide)]
      apply key
      rw [hx]
      by_cases e1 : (L.st.nodes n).fn = 2
      · rw [if_pos e1]; right; decide
      · rw [if_neg e1]
        by_cases e2 : (L.st.nodes n).fn = 3
        · rw [if_pos e2]; right; decide
        · rw [if_neg e2]; left; rfl
  · rw [if_neg k1]
    apply key
    rw [hx]
    have kw : ∀ (p : Prop) [Decidable p] (a : String) (b : List Char), (a.toList ∈ keywords ∧ a.toList ≠ "PI".toList ∧ a.toList ≠ "PO".toList) →
        (b = toHex f ∨ b ∈ keywords ∧ b ≠ "PI".toList ∧ b ≠ "PO".toList) →
        ((if p then a.toList else b) = toHex f ∨ (if p then a.toList else b) ∈ keywords ∧ (if p then a.toList else b) ≠ "PI".toList ∧
          (if p then a.toList else b) ≠ "PO".toList) := by
      intro p _ a b ha hb
      by_cases hp : p
      · rw [if_pos hp]; exact Or.inr ha
      · rw [if_neg hp]; exact hb
    by_cases k2 : k = 2
    · rw [if_pos k2]
      iterate 10 refine kw _ _ _ (by decide) ?_
      exact Or.inl rfl
    · rw [if_neg k2]
      by_cases k3 : k = 3
      · rw [if_pos k3]
        refine kw _ _ _ (by decide) ?_
        exact Or.inl rfl
      · rw [if_neg k3]
        exact Or.inl rfl

theorem writeGate_reads {n : Nat} (hn : n ∈ order) (id : Nat) :
    writeGate tp L id n = ⟨id, typeOf L n (L.reads tp n).length, if (L.reads tp n).length = 1 ∧ L.st.isPo n then L.name n else [], L.st.getTile n,
      L.reads tp n⟩ := by
  obtain ⟨⟨t, htd, ht⟩, hrd, -⟩ := H.gate n hn
  obtain ⟨e1, e2⟩ := H.nodeTile ht
  have : L.st.fanins L.dim tp L.cs true (L.st.getNode (L.st.getTile n)) = L.reads tp n := by rw [e2, e1]; rfl
  unfold writeGate
  simp only [this]
  rw [map_plain hrd, plain_eq (by rw [e2]; exact htd)]

theorem writeGates_readable : (writeGates tp L order).all Rec.readable = true := by
  rw [List.all_eq_true]
  intro r hr
  unfold writeGates at hr
  rw [List.mem_append, List.mem_iff_getElem?, List.mem_iff_getElem?] at hr
  simp only [List.getElem?_mapIdx, Option.map_eq_some_iff] at hr
  rcases hr with ⟨i, n, hn, rfl⟩ | ⟨i, n, hn, rfl⟩
  · have := (H.pi n (List.mem_of_getElem? hn)).2.2
    unfold Rec.readable writePi
    simp only [this]
    have e : blank "PI".toList = false := by decide
    rw [e]
    simp
  · have hm := List.mem_of_getElem? hn
    obtain ⟨⟨t, htd, ht⟩, -⟩ := H.gate n hm
    rw [writeGate_reads H hm]
    obtain ⟨h1, h2, h3⟩ := typeOf_blank H hm
    unfold Rec.readable
    simp only [h1]
    by_cases hpo : typeOf L n (L.reads tp n).length = "PO".toList
    · obtain ⟨h4, h5⟩ := h3 hpo
      have hp := (H.isPo_iff htd ht).1 h4
      obtain ⟨-, k, hk, -, -, hk'⟩ := H.po t hp
      rw [ht] at hk
      injection hk with hk
      subst hk
      rw [if_pos ⟨h5, h4⟩, hk']
      simp
    · have e1 : decide (typeOf L n (L.reads tp n).length = "PI".toList) = false := decide_eq_false h2
      have e2 : decide (typeOf L n (L.reads tp n).length = "PO".toList) = false := decide_eq_false hpo
      rw [e1, e2]
      rfl

include T

/-- Everything is read. -/
theorem read_built (title : List Char) {cs' : Scheme} (hcs : readClocking tp (write tp L order) = some cs') :
    ∃ R, read tp title (write tp L order) = some R ∧ R.cs = cs' ∧ R.dim = L.dim ∧ R.title = (if blank L.title then title else L.title) ∧
      Built tp L (L.st.inputs ++ order) R := by
  have h0 : Built tp L [] ⟨if blank L.title then title else L.title, L.dim, cs', init, layoutCache, fun _ => []⟩ := by
    refine ⟨WF.init, rfl, List.prefix_refl _, ?_, ?_, ?_, ?_, ?_, rfl, ?_⟩
    · intro i n h; simp at h
    · intro k hk j hj
      simp only [init] at hj
      split_ifs at hj with e1 e2
      · rw [e1] at hk; cases hk
      · rw [e2] at hk; cases hk
    · intro i n h; simp at h
    · intro i n h; simp at h
    · simp [init]
    · intro i n h; simp at h
  obtain ⟨R1, p1, b1, d1, c1, t1⟩ := pi_loop H L.st.inputs [] _ id rfl h0
  obtain ⟨R2, p2, b2, d2, c2, t2⟩ := gate_loop H T order [] R1 (fun i => L.st.inputs.length + i) rfl (by rw [List.append_nil]; exact b1)
  refine ⟨R2, ?_, c2.trans c1, d2.trans d1, t2.trans t1, b2⟩
  unfold read
  rw [if_neg (by unfold write; simp), hcs]
  simp only
  rw [show (write tp L order).gates = writeGates tp L order from rfl, if_pos (writeGates_readable H), writeGates_sorted]
  show placeAll (writeGates tp L order) _ = _
  unfold writeGates
  exact (placeAll_append p1).trans p2

/-- What the result holds. -/
theorem built_kept {R : Lyt} (h : Built tp L (L.st.inputs ++ order) R) (hd : R.dim = L.dim) (ht : blank L.title = false → R.title = L.title)
    (hc : SameFlow tp L order R.cs) : Kept tp L R (L.st.inputs ++ order) := by
  have idx : ∀ t n k, t.d = false → L.st.tileNode t = some n → R.st.tileNode t = some k →
      ∃ i, (L.st.inputs ++ order)[i]? = some n ∧ k = 2 + i := by
    intro t n k htd htn htk
    obtain ⟨i, n', h1, h2⟩ := h.only t htd k htk
    have hm := List.mem_of_getElem? h1
    obtain ⟨t', -, ht'⟩ := H.placed hm
    rw [(H.nodeTile ht').2] at h2
    subst h2
    rw [htn] at ht'
    injection ht' with ht'
    subst ht'
    have := h.tile i n h1
    rw [(H.nodeTile htn).2, htk] at this
    exact ⟨i, h1, Option.some.inj this⟩
  refine ⟨h.wf, ht, hd, ?_, ?_, ?_, ?_, ?_, ?_⟩
  · intro t htd
    constructor
    · rintro ⟨k, hk⟩
      obtain ⟨i, n, h1, h2⟩ := h.only t htd k hk
      have hm := List.mem_of_getElem? h1
      obtain ⟨t', -, ht'⟩ := H.placed hm
      rw [(H.nodeTile ht').2] at h2
      exact ⟨n, hm, h2 ▸ ht'⟩
    · rintro ⟨n, hn, htn⟩
      obtain ⟨i, hi⟩ := List.mem_iff_getElem?.1 hn
      have := h.tile i n hi
      rw [(H.nodeTile htn).2] at this
      exact ⟨_, this⟩
  · intro t n k htd htn htk
    obtain ⟨i, hi, rfl⟩ := idx t n k htd htn htk
    obtain ⟨⟨f, h1, h2⟩, h3⟩ := h.fn i n hi
    exact ⟨h2.trans h1.symm, h3⟩
  · intro t n k htd htn htk hni
    obtain ⟨i, hi, rfl⟩ := idx t n k htd htn htk
    have hmo : n ∈ order := by
      rcases List.mem_append.1 (List.mem_of_getElem? hi) with hm | hm
      · exact absurd hm hni
      · exact hm
    have hch := h.children i n hi hni
    have hRt : R.st.getTile (2 + i) = t := by simp [State.getTile, (h.wf.inv _ _).1 htk]
    have hLt := (H.nodeTile htn).2
    have hsig : ∀ c ∈ L.reads tp n, R.st.getTile (R.st.getNode c) = c := by
      intro c hcm
      obtain ⟨e1, e2, e3⟩ := H.read_node hmo hcm
      obtain ⟨j, hj⟩ := List.mem_iff_getElem?.1 hmo
      have hin : L.st.getNode c ∈ L.st.inputs ++ order := by
        rcases T.before j n hj c hcm with h0 | h0 | ⟨j', -, hj'⟩
        · omega
        · exact List.mem_append_left _ h0
        · exact List.mem_append_right _ (List.mem_of_getElem? hj')
      have := h.signal hin
      rw [e1] at this
      exact this
    unfold Lyt.reads at hsig hch ⊢
    rw [State.fanins, if_neg (by omega), hch, hRt, hd]
    simp only
    rw [List.filter_eq_self.2]
    · conv_rhs => rw [← List.map_id (L.st.fanins L.dim tp L.cs true n)]
      exact List.map_congr_left fun c hcm => hsig c hcm
    · intro c hcm
      obtain ⟨a1, -⟩ := H.read_adj hmo hcm
      rw [hLt] at a1
      simp only [hsig c hcm, a1, Bool.true_and, Bool.not_true, Bool.false_or]
      have := hc n hmo c hcm
      rw [hLt] at this
      exact this
  · rw [h.inputs, List.length_append, Nat.min_eq_right (by omega), List.map_map]
    apply List.ext_getElem?
    intro i
    by_cases hi : i < L.st.inputs.length
    · rw [List.getElem?_map, List.getElem?_map, List.getElem?_range hi, List.getElem?_eq_getElem hi]
      have hti := h.tile i (L.st.inputs[i]) (by rw [List.getElem?_append_left hi, List.getElem?_eq_getElem hi])
      have := (h.wf.inv _ _).1 hti
      simp only [Option.map_some, Function.comp_apply, Option.some.injEq]
      generalize L.st.getTile L.st.inputs[i] = t at *
      simp [State.getTile, this]
    · rw [List.getElem?_eq_none (by simpa using hi), List.getElem?_eq_none (by simpa using hi)]
  · rw [h.outputs]
    rw [List.perm_ext_iff_of_nodup _ H.outputs]
    · intro p
      simp only [List.mem_map, List.mem_filter]
      constructor
      · rintro ⟨n, ⟨hn, hp⟩, rfl⟩
        obtain ⟨t, htd, ht⟩ := H.placed hn
        rw [(H.nodeTile ht).2]
        exact (H.isPo_iff htd ht).1 hp
      · intro hp
        obtain ⟨hpd, n, hn, hni, -, -⟩ := H.po p hp
        refine ⟨n, ⟨List.mem_append_right _ ((T.mem n).2 ⟨hni, H.two hpd hn, p, hp, ?_⟩), (H.isPo_iff hpd hn).2 hp⟩, (H.nodeTile hn).2⟩
        rw [(H.nodeTile hn).1]
        exact Relation.ReflTransGen.refl
    · refine List.Nodup.map_on ?_ ((H.disjoint T).filter _)
      intro a ha b hb e
      exact H.tile_inj (List.mem_filter.1 ha).1 (List.mem_filter.1 hb).1 e
  · intro t n k htd htn htk hp
    obtain ⟨i, hi, rfl⟩ := idx t n k htd htn htk
    exact h.names i n hi hp

/-- **C71** A layout that is written and read back is the part of it that its outputs need: at the same tiles, with the same functions, connections,
inputs, outputs and names, provided data still flows along its connections under the clocking that is read (see below). The outputs are in the order in
which they were written. -/
theorem C71_read (title : List Char) {cs' : Scheme} (hcs : readClocking tp (write tp L order) = some cs') (hc : SameFlow tp L order cs') :
    ∃ R, read tp title (write tp L order) = some R ∧ R.cs = cs' ∧ Kept tp L R (L.st.inputs ++ order) ∧
      R.st.outputs = (order.filter L.st.isPo).map L.st.getTile := by
  obtain ⟨R, h1, h2, h3, h4, h5⟩ := read_built H T title hcs
  refine ⟨R, h1, h2, built_kept H T h5 h3 ?_ (by rw [h2]; exact hc), ?_⟩
  · intro hb
    rw [h4, hb]
    rfl
  · rw [h5.outputs, List.filter_append, List.filter_eq_nil_iff.2, List.nil_append]
    intro n hn
    rw [H.pi_not_po hn]
    decide

/-- **C71** (order of the outputs) The outputs keep their order if no output needs a later one. -/
theorem C71_outputs (hs : ∀ (k k' : Nat) p p', k < k' → L.st.outputs[k]? = some p → L.st.outputs[k']? = some p' →
      ¬ Needs tp L (L.st.getNode p) (L.st.getNode p')) : (order.filter L.st.isPo).map L.st.getTile = L.st.outputs := by
  have hperm : ((order.filter L.st.isPo).map L.st.getTile).Perm L.st.outputs := by
    rw [List.perm_ext_iff_of_nodup _ H.outputs]
    · intro p
      simp only [List.mem_map, List.mem_filter]
      constructor
      · rintro ⟨n, ⟨hn, hp⟩, rfl⟩
        obtain ⟨t, htd, ht⟩ := H.placed (List.mem_append_right _ hn)
        rw [(H.nodeTile ht).2]
        exact (H.isPo_iff htd ht).1 hp
      · intro hp
        obtain ⟨hpd, n, hn, hni, -, -⟩ := H.po p hp
        refine ⟨n, ⟨(T.mem n).2 ⟨hni, H.two hpd hn, p, hp, ?_⟩, (H.isPo_iff hpd hn).2 hp⟩, (H.nodeTile hn).2⟩
        rw [(H.nodeTile hn).1]
        exact Relation.ReflTransGen.refl
    · refine List.Nodup.map_on ?_ (T.nodup.filter _)
      intro a ha b hb e
      exact H.tile_inj (List.mem_append_right _ (List.mem_filter.1 ha).1) (List.mem_append_right _ (List.mem_filter.1 hb).1) e
  refine List.Perm.eq_of_pairwise (le := fun a b => L.st.outputs.idxOf a < L.st.outputs.idxOf b) (fun a b _ _ h1 h2 => ?_) ?_ ?_ hperm
  · exact absurd h2 (Nat.lt_asymm h1)
  · rw [List.pairwise_map]
    refine List.Pairwise.imp_of_mem (R := fun a b => L.st.isPo a = true → L.st.isPo b = true →
      L.st.outputs.idxOf (L.st.getTile a) < L.st.outputs.idxOf (L.st.getTile b))
      (fun ha hb h => h (List.mem_filter.1 ha).2 (List.mem_filter.1 hb).2) (List.Pairwise.filter _ ?_)
    rw [List.pairwise_iff_getElem]
    intro i j hi hj hij hpa' hpb'
    have hfi : order[i]? = some order[i] := List.getElem?_eq_getElem hi
    have hfj : order[j]? = some order[j] := List.getElem?_eq_getElem hj
    have ha' : order[i] ∈ order := List.getElem_mem _
    have hb' : order[j] ∈ order := List.getElem_mem _
    generalize order[i] = a at *
    generalize order[j] = b at *
    obtain ⟨ta, had, hta⟩ := H.placed (List.mem_append_right _ ha')
    obtain ⟨tb, hbd, htb⟩ := H.placed (List.mem_append_right _ hb')
    have hpa := (H.isPo_iff had hta).1 hpa'
    have hpb := (H.isPo_iff hbd htb).1 hpb'
    rw [(H.nodeTile hta).2, (H.nodeTile htb).2]
    have ga : L.st.outputs[L.st.outputs.idxOf ta]? = some ta := by
      rw [List.getElem?_eq_getElem (List.idxOf_lt_length_of_mem hpa)]; simp
    have gb : L.st.outputs[L.st.outputs.idxOf tb]? = some tb := by
      rw [List.getElem?_eq_getElem (List.idxOf_lt_length_of_mem hpb)]; simp
    obtain ⟨k', hk', p', hp', hneed⟩ := T.first _ tb j gb (by rw [(H.nodeTile htb).1]; exact hfj) i (Nat.le_of_lt hij) a hfi
    have hle : L.st.outputs.idxOf ta ≤ L.st.outputs.idxOf tb := by
      by_contra hcon
      refine hs k' _ p' ta ?_ hp' ga ?_
      · omega
      · rw [(H.nodeTile hta).1]; exact hneed
    have hne : L.st.outputs.idxOf ta ≠ L.st.outputs.idxOf tb := by
      intro e
      rw [e] at ga
      rw [ga] at gb
      injection gb with gb
      subst gb
      rw [hta] at htb
      injection htb with htb
      subst htb
      have h1 := (List.getElem?_inj hi T.nodup).1 (hfi.trans hfj.symm)
      omega
    omega
  · rw [List.pairwise_iff_getElem]
    intro i j hi hj hij
    rw [H.outputs.idxOf_getElem i hi, H.outputs.idxOf_getElem j hj]
    exact hij


omit T in
/-- Data flows as before where the tiles are clocked as before. -/
theorem SameClocks.flow {cs' : Scheme} (h : SameClocks L cs') : SameFlow tp L order cs' := by
  intro n hn c hc
  obtain ⟨⟨t, htd, ht⟩, hrd, -⟩ := H.gate n hn
  obtain ⟨-, a2⟩ := H.read_adj hn hc
  obtain ⟨-, -, e3⟩ := H.read_node hn hc
  rw [(H.nodeTile ht).2] at a2 ⊢
  unfold isIncomingClocked at a2 ⊢
  rw [h.clocks, h.clock t n htd ht, h.clock c _ (hrd c hc) e3]
  exact a2

end

/-! ## The function of the layout -/

section
variable {tp : Topo} {L R : Lyt} {order : List Nat} (H : Writable tp L order) (T : TopoView tp L order) (K : Kept tp L R (L.st.inputs ++ order))
include H T K

theorem kept_input {t : Coord} {n k : Nat} (htd : t.d = false) (htn : L.st.tileNode t = some n) (htk : R.st.tileNode t = some k) (i : Nat) :
    L.st.inputs[i]? = some n ↔ R.st.inputs[i]? = some k := by
  have e := congrArg (fun l => l[i]?) K.inputs
  simp only [List.getElem?_map] at e
  have hL : L.st.nodeTile n = some t := (H.wf.inv _ _).1 htn
  have hR : R.st.nodeTile k = some t := (K.wf.inv _ _).1 htk
  have c0 : t ≠ const0 := by rintro rfl; cases htd
  constructor
  · intro h
    rw [h] at e
    cases h' : R.st.inputs[i]? with
    | none => rw [h'] at e; cases e
    | some k' =>
      rw [h'] at e
      simp only [Option.map_some, Option.some.injEq, State.getTile, hL, Option.getD_some] at e
      cases hk : R.st.nodeTile k' with
      | none => rw [hk] at e; exact absurd e.symm c0
      | some t' =>
        rw [hk, Option.getD_some] at e
        subst e
        have := (K.wf.inv _ _).2 hk
        rw [htk] at this
        exact this.symm
  · intro h
    rw [h] at e
    cases h' : L.st.inputs[i]? with
    | none => rw [h'] at e; cases e
    | some n' =>
      rw [h'] at e
      simp only [Option.map_some, Option.some.injEq, State.getTile, hR, Option.getD_some] at e
      cases hk : L.st.nodeTile n' with
      | none => rw [hk] at e; exact absurd e c0
      | some t' =>
        rw [hk, Option.getD_some] at e
        subst e
        have := (H.wf.inv _ _).2 hk
        rw [htn] at this
        exact this.symm

theorem kept_mem {t : Coord} {n k : Nat} (htd : t.d = false) (htn : L.st.tileNode t = some n) (htk : R.st.tileNode t = some k) :
    n ∈ L.st.inputs ↔ k ∈ R.st.inputs := by
  rw [List.mem_iff_getElem?, List.mem_iff_getElem?]
  exact exists_congr (kept_input H T K htd htn htk)

theorem kept_order {t : Coord} {n k : Nat} (htd : t.d = false) (htn : L.st.tileNode t = some n) (htk : R.st.tileNode t = some k)
    (hi : n ∉ L.st.inputs) : n ∈ order := by
  obtain ⟨n', hm, h'⟩ := (K.occupied t htd).1 ⟨k, htk⟩
  rw [htn] at h'
  injection h' with h'
  subst h'
  exact (List.mem_append.1 hm).resolve_left hi

theorem kept_read {n : Nat} (hn : n ∈ order) {c : Coord} (hc : c ∈ L.reads tp n) :
    c.d = false ∧ L.st.tileNode c = some (L.st.getNode c) ∧ R.st.tileNode c = some (R.st.getNode c) := by
  obtain ⟨-, h2, h3⟩ := H.read_node hn hc
  have hcd := (H.gate n hn).2.1 c hc
  obtain ⟨j, hj⟩ := List.mem_iff_getElem?.1 hn
  have hin : L.st.getNode c ∈ L.st.inputs ++ order := by
    rcases T.before j n hj c hc with h0 | h0 | ⟨j', -, hj'⟩
    · omega
    · exact List.mem_append_left _ h0
    · exact List.mem_append_right _ (List.mem_of_getElem? hj')
  obtain ⟨k, hk⟩ := (K.occupied c hcd).2 ⟨_, hin, h3⟩
  refine ⟨hcd, h3, ?_⟩
  rw [hk, State.getNode, hk]
  rfl

/-- **C71** (function) The result computes what the layout computes, at every tile that is read back and so at every output, whatever tables mean. -/
theorem C71_function (I : Option TT → List Bool → Bool) (a : Nat → Bool) (t : Coord) (n k : Nat) (htd : t.d = false) (htn : L.st.tileNode t = some n)
    (htk : R.st.tileNode t = some k) (b : Bool) :
    Val (tabOf I L) L.dim tp L.cs L.st a n b ↔ Val (tabOf I R) R.dim tp R.cs R.st a k b := by
  constructor
  · intro hv
    induction hv generalizing t k with
    | input i n hi => exact .input i k ((kept_input H T K htd htn htk i).1 hi)
    | gate n bs h2 hi hl hv ih =>
      have hr : State.fanins R.dim R.st tp R.cs true k = State.fanins L.dim L.st tp L.cs true n := K.reads t n k htd htn htk hi
      have hf : tabOf I L (L.st.nodes n).fn bs = tabOf I R (R.st.nodes k).fn bs := by
        unfold tabOf
        rw [(K.function t n k htd htn htk).1]
      rw [hf]
      refine .gate k bs ?_ (fun hc => hi ((kept_mem H T K htd htn htk).2 hc)) (by rw [hr]; exact hl) ?_
      · by_contra hc
        have := (K.wf.live t k htk).1 (by omega)
        rw [htd] at this
        cases this
      · intro i hlt
        have hlt' : i < (State.fanins L.dim L.st tp L.cs true n).length := by rw [← hl]; exact hlt
        rw [hr]
        have hmem : (State.fanins L.dim L.st tp L.cs true n).getD i const0 ∈ L.reads tp n := by
          rw [List.getD_eq_getElem?_getD, List.getElem?_eq_getElem hlt', Option.getD_some]
          exact List.getElem_mem _
        obtain ⟨e1, e2, e3⟩ := kept_read H T K (kept_order H T K htd htn htk hi) hmem
        exact ih i hlt _ _ e1 e2 e3
  · intro hv
    induction hv generalizing t n with
    | input i k hi => exact .input i n ((kept_input H T K htd htn htk i).2 hi)
    | gate k bs h2 hi' hl hv ih =>
      have hi : n ∉ L.st.inputs := fun hc => hi' ((kept_mem H T K htd htn htk).1 hc)
      have hr : State.fanins R.dim R.st tp R.cs true k = State.fanins L.dim L.st tp L.cs true n := K.reads t n k htd htn htk hi
      have hf : tabOf I L (L.st.nodes n).fn bs = tabOf I R (R.st.nodes k).fn bs := by
        unfold tabOf
        rw [(K.function t n k htd htn htk).1]
      rw [← hf]
      rw [hr] at hl
      refine .gate n bs (H.two htd htn) hi hl ?_
      intro i hlt
      have hlt' : i < (State.fanins L.dim L.st tp L.cs true n).length := by rw [← hl]; exact hlt
      have hmem : (State.fanins L.dim L.st tp L.cs true n).getD i const0 ∈ L.reads tp n := by
        rw [List.getD_eq_getElem?_getD, List.getElem?_eq_getElem hlt', Option.getD_some]
        exact List.getElem_mem _
      obtain ⟨e1, e2, e3⟩ := kept_read H T K (kept_order H T K htd htn htk hi) hmem
      have := ih i hlt
      rw [hr] at this
      exact this _ _ e1 e2 e3

end

end Verif.Fgl
