import Verif.Networks.Lemmas
import Mathlib.Data.List.Nodup
import Mathlib.Tactic.ByContra

/-!
# Model of `technology_network::substitute_po_signals`
-/
namespace Verif.Networks

/-- One step of the loop, technology_network.hpp:385-397. In the code the reference counter of the buffer stays zero although it drives
an output; the counters of the new buffers are not read by the loop. -/
def Ntk.bufferPo (N : Ntk) (i : Nat) : Ntk :=
  let p := N.pos.getD i 0
  if !(N.node p).isBuf || N.isFanout p then { (N.add (.buf p)).1 with pos := N.pos.set i N.nodes.length } else N

/-- `substitute_po_signals`, technology_network.hpp:383-398. -/
def Ntk.substitutePos (N : Ntk) : Ntk := (List.range N.pos.length).foldl Ntk.bufferPo N

/-- The state of the loop after `i` outputs. -/
structure Buffered (N : Ntk) (i : Nat) (N' : Ntk) : Prop where
  nodes : ∃ l : List Node, N'.nodes = N.nodes ++ l ∧ ∀ x ∈ l, ∃ p ∈ N.pos, x = .buf p
  length : N'.pos.length = N.pos.length
  rest : ∀ j : Nat, i ≤ j → N'.pos[j]? = N.pos[j]?
  old : ∀ n < N.size, N'.fanoutSize n = N.fanoutSize n
  new : ∀ n, N.size ≤ n → n < N'.size → N'.fanoutSize n = 1
  closed : ∀ n, N'.size ≤ n → N'.fanoutSize n = 0
  done : ∀ j b : Nat, j < i → N'.pos[j]? = some b → b < N'.size ∧ (N'.node b).isBuf = true ∧ N'.fanoutSize b = 1 ∧
    ∀ a, ∀ p, N.pos[j]? = some p → N'.value a b = N.value a p

theorem fanoutSize_ge {N : Ntk} (hf : ∀ i < N.size, ∀ f ∈ (N.node i).fanins, f < i) (hp : ∀ p ∈ N.pos, p < N.size) {n : Nat} (hn : N.size ≤ n) :
    N.fanoutSize n = 0 := by
  unfold Ntk.fanoutSize
  have h1 : (N.nodes.map (fun x => x.fanins.count n)).sum = 0 := by
    rw [List.sum_eq_zero]
    intro k hk
    obtain ⟨x, hx, rfl⟩ := List.mem_map.1 hk
    obtain ⟨i, hi, rfl⟩ := List.getElem_of_mem hx
    rw [List.count_eq_zero]
    intro hm
    have e : N.node i = N.nodes[i] := by
      unfold Ntk.node
      rw [List.getD_eq_getElem?_getD, List.getElem?_eq_getElem hi]
      rfl
    have := hf i hi n (by rw [e]; exact hm)
    unfold Ntk.size at hn
    omega
  have h2 : N.pos.count n = 0 := by
    rw [List.count_eq_zero]
    intro hm
    have := hp n hm
    omega
  omega

theorem fanoutSize_bufferPo (N : Ntk) (i p n : Nat) (hi : i < N.pos.length) (hp : N.pos[i]? = some p) :
    ({ (N.add (.buf p)).1 with pos := N.pos.set i N.nodes.length } : Ntk).fanoutSize n =
      N.fanoutSize n + if n = N.size then 1 else 0 := by
  have e : N.pos[i] = p := by
    rw [List.getElem?_eq_getElem hi] at hp
    exact Option.some.inj hp
  unfold Ntk.fanoutSize Ntk.add Ntk.size
  simp only [List.map_append, List.map_cons, List.map_nil, List.sum_append, List.sum_cons, List.sum_nil, Node.fanins]
  rw [List.count_set hi, e, List.count_singleton]
  have hc : p = n → 0 < N.pos.count n := by
    rintro rfl
    exact List.count_pos_iff.2 (List.mem_of_getElem? hp)
  by_cases h1 : p = n
  · have := hc h1
    by_cases h2 : n = N.nodes.length
    · simp only [h1, h2, beq_self_eq_true, if_true]
      rw [h2] at this
      omega
    · have h3 : ¬ N.nodes.length = n := fun h => h2 h.symm
      simp only [h1, beq_self_eq_true, if_true, h2, if_false, beq_iff_eq, h3]
      omega
  · by_cases h2 : n = N.nodes.length
    · simp only [h2, beq_self_eq_true, if_true]
      rw [h2] at h1
      simp only [beq_iff_eq, h1, if_false]
      omega
    · have h3 : ¬ N.nodes.length = n := fun h => h2 h.symm
      simp only [beq_iff_eq, h1, if_false, h2, h3]
      omega

theorem Buffered.step {N M : Ntk} {i : Nat} (hp : ∀ p ∈ N.pos, p < N.size) (hi : i < N.pos.length) (h : Buffered N i M) :
    Buffered N (i + 1) (M.bufferPo i) := by
  have hiM : i < M.pos.length := by rw [h.length]; exact hi
  obtain ⟨p, hpi⟩ : ∃ p, N.pos[i]? = some p := ⟨N.pos[i], List.getElem?_eq_getElem hi⟩
  have hpM : M.pos[i]? = some p := by rw [h.rest i (le_refl _), hpi]
  have hpm : p ∈ N.pos := List.mem_of_getElem? hpi
  have hpN := hp p hpm
  obtain ⟨l, hl, hlb⟩ := h.nodes
  have hsz : M.size = N.size + l.length := by unfold Ntk.size; rw [hl, List.length_append]
  have hval : ∀ a n, n < N.size → M.value a n = N.value a n := by
    intro a n hn
    have := Ext.value (N := N) (N' := { M with pos := N.pos }) ⟨⟨l, hl⟩, rfl⟩ a n hn
    exact this
  have hnode : ∀ n, n < N.size → M.node n = N.node n := by
    intro n hn
    exact Ext.node (N := N) (N' := { M with pos := N.pos }) ⟨⟨l, hl⟩, rfl⟩ n hn
  have hgd : M.pos.getD i 0 = p := by rw [List.getD_eq_getElem?_getD, hpM]; rfl
  unfold Ntk.bufferPo
  rw [hgd]
  dsimp only
  split
  · have hfs := fun n => fanoutSize_bufferPo M i p n hiM hpM
    have hnd : ∀ n, ({ (M.add (.buf p)).1 with pos := M.pos.set i M.nodes.length } : Ntk).node n = if n = M.size then .buf p else M.node n :=
      fun n => Ntk.node_add M (.buf p) n
    have hvl : ∀ a n, ({ (M.add (.buf p)).1 with pos := M.pos.set i M.nodes.length } : Ntk).value a n =
        if n = M.size then M.value a p else M.value a n := fun a n => Ntk.value_add M a (.buf p) n
    have hs1 : ({ (M.add (.buf p)).1 with pos := M.pos.set i M.nodes.length } : Ntk).size = M.size + 1 := Ntk.size_add M (.buf p)
    refine ⟨⟨l ++ [.buf p], ?_, ?_⟩, ?_, ?_, ?_, ?_, ?_, ?_⟩
    · simp only [Ntk.add]
      rw [hl, List.append_assoc]
    · intro x hx
      rcases List.mem_append.1 hx with hx | hx
      · exact hlb x hx
      · exact ⟨p, hpm, List.mem_singleton.1 hx⟩
    · simp only [List.length_set]
      exact h.length
    · intro j hj
      simp only
      rw [List.getElem?_set_ne (by omega)]
      exact h.rest j (by omega)
    · intro n hn
      rw [hfs, h.old n hn, if_neg (by omega)]
      rfl
    · intro n h1 h2
      rw [hs1] at h2
      rw [hfs]
      by_cases e : n = M.size
      · rw [if_pos e, h.closed n (by omega)]
      · rw [if_neg e, h.new n h1 (by omega)]
    · intro n hn
      rw [hs1] at hn
      rw [hfs, if_neg (by omega), h.closed n (by omega)]
    · intro j b hj hb
      simp only at hb
      rw [hs1, hnd, hfs]
      by_cases e : j = i
      · subst e
        rw [List.getElem?_set_self hiM] at hb
        have hb := Option.some.inj hb
        change M.size = b at hb
        subst hb
        rw [if_pos rfl, if_pos rfl, h.closed M.size (le_refl _)]
        refine ⟨by omega, rfl, rfl, ?_⟩
        intro a q hq
        rw [hpi] at hq
        rw [hvl, if_pos rfl, hval a p hpN, Option.some.inj hq]
      · rw [List.getElem?_set_ne (by omega)] at hb
        obtain ⟨d1, d2, d3, d4⟩ := h.done j b (by omega) hb
        rw [if_neg (by omega), if_neg (by omega)]
        refine ⟨by omega, d2, d3, ?_⟩
        intro a q hq
        rw [hvl, if_neg (by omega)]
        exact d4 a q hq
  · rename_i hc
    simp only [Bool.or_eq_true, Bool.not_eq_true', not_or, Bool.not_eq_false, Bool.not_eq_true] at hc
    obtain ⟨hb, hf⟩ := hc
    refine ⟨⟨l, hl, hlb⟩, h.length, fun j hj => h.rest j (by omega), h.old, h.new, h.closed, ?_⟩
    intro j b hj hjb
    by_cases e : j = i
    · subst e
      rw [hpM] at hjb
      have := Option.some.inj hjb
      subst this
      refine ⟨by omega, hb, ?_, ?_⟩
      · unfold Ntk.isFanout at hf
        rw [hb, Bool.true_and, decide_eq_false_iff_not] at hf
        have : 0 < M.pos.count p := List.count_pos_iff.2 (List.mem_of_getElem? hpM)
        have : M.pos.count p ≤ M.fanoutSize p := by unfold Ntk.fanoutSize; omega
        omega
      · intro a q hq
        rw [hpi] at hq
        rw [hval a p hpN, Option.some.inj hq]
    · exact h.done j b (by omega) hjb

theorem substitutePos_buffered {N : Ntk} (hf : ∀ i < N.size, ∀ f ∈ (N.node i).fanins, f < i) (hp : ∀ p ∈ N.pos, p < N.size) :
    Buffered N N.pos.length N.substitutePos := by
  have key : ∀ i, i ≤ N.pos.length → Buffered N i ((List.range i).foldl Ntk.bufferPo N) := by
    intro i
    induction i with
    | zero =>
      intro _
      exact ⟨⟨[], by simp, by simp⟩, rfl, fun _ _ => rfl, fun _ _ => rfl, fun n h1 h2 => absurd h2 (by simp; omega),
        fun n hn => fanoutSize_ge hf hp hn, fun j b hj => absurd hj (by omega)⟩
    | succ i ih =>
      intro hi
      rw [List.range_succ, List.foldl_append]
      exact (ih (by omega)).step hp (by omega)
  exact key _ (le_refl _)

end Verif.Networks
