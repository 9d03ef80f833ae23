import Verif.PhysicalDesign.GoldInv

/-!
# The orders in which graph-oriented layout design places nodes
-/
namespace Verif.PhysicalDesign.Gold

open Verif.Networks

/-! ## Model -/

/-- `create_topo_rec` from outputs to inputs, graph_oriented_layout_design.hpp:664-693. `perm n` is the order in which the fanins of
`n` are visited (shuffled in some variants). The temporary marks detect cycles and are omitted; the recursion is at most as deep as the
network is large. -/
def down (N : Ntk) (perm : Nat → List Nat → List Nat) : Nat → List Nat → Nat → List Nat
  | 0, acc, _ => acc
  | fuel + 1, acc, n => if n ∈ acc then acc else (perm n (N.node n).fanins).foldl (down N perm fuel) acc ++ [n]

/-- `create_topo_rec` from inputs to outputs, graph_oriented_layout_design.hpp:623-661. -/
def up (N : Ntk) (perm : Nat → List Nat → List Nat) : Nat → List Nat → Nat → List Nat
  | 0, acc, _ => acc
  | fuel + 1, acc, n =>
    if (N.node n).fanins.all (fun f => decide (f ∈ acc)) && decide (n ∉ acc) then
      (perm n (N.fanouts n)).foldl (up N perm fuel) (acc ++ [n])
    else acc

/-- `update_topo`, graph_oriented_layout_design.hpp:572-619; `starts` are the outputs or the inputs, shuffled in some variants. -/
def topoOrder (N : Ntk) (ciToCo : Bool) (perm : Nat → List Nat → List Nat) (starts : List Nat) : List Nat :=
  starts.foldl (if ciToCo then up N perm N.size else down N perm N.size) [0, 1]

/-- `prepare_nodes_to_place`, graph_oriented_layout_design.hpp:2213-2227. -/
def nodesToPlace (N : Ntk) (topo : List Nat) : List Nat :=
  topo.filter (fun n => !(N.node n).isConst && !decide (n ∈ N.pos)) ++ N.pos

/-! ## Lemmas -/

/-- A list of nodes in which every node occurs once and after its fanins. -/
structure Sorted (N : Ntk) (l : List Nat) : Prop where
  nodup : l.Nodup
  lt : ∀ n ∈ l, n < N.size
  fanins : ∀ a n r, l = a ++ n :: r → ∀ f ∈ (N.node n).fanins, f ∈ a

theorem Sorted.snoc {N : Ntk} {l : List Nat} {n : Nat} (h : Sorted N l) (hn : n < N.size) (hm : n ∉ l) (hf : ∀ f ∈ (N.node n).fanins, f ∈ l) :
    Sorted N (l ++ [n]) := by
  refine ⟨?_, ?_, ?_⟩
  · rw [List.nodup_append]
    refine ⟨h.nodup, by simp, ?_⟩
    intro a ha b hb
    rw [List.mem_singleton] at hb
    rintro rfl
    exact hm (hb ▸ ha)
  · intro m hm
    rw [List.mem_append, List.mem_singleton] at hm
    rcases hm with hm | rfl
    · exact h.lt m hm
    · exact hn
  · intro a m r e
    rcases List.append_eq_append_iff.1 e with ⟨c, h1, h2⟩ | ⟨c, h1, h2⟩
    · cases c with
      | nil =>
        rw [List.append_nil] at h1
        rw [List.nil_append, List.cons.injEq] at h2
        rw [← h2.1, h1]
        exact hf
      | cons x c =>
        simp at h2
    · cases c with
      | nil =>
        rw [List.append_nil] at h1
        rw [List.nil_append, List.cons.injEq] at h2
        rw [h2.1, ← h1]
        exact hf
      | cons x c =>
        rw [List.cons_append, List.cons.injEq] at h2
        rw [h2.1]
        exact h.fanins a x c h1

theorem foldl_grows {α : Type} {g : List Nat → α → List Nat} {P : List Nat → Prop} {Q : α → Prop} (hg : ∀ l x, P l → Q x → P (g l x) ∧ ∀ m ∈ l, m ∈ g l x) :
    ∀ (xs : List α) (l : List Nat), P l → (∀ x ∈ xs, Q x) → P (xs.foldl g l) ∧ ∀ m ∈ l, m ∈ xs.foldl g l
  | [], l, h, _ => ⟨h, fun _ hm => hm⟩
  | x :: xs, l, h, hq => by
    obtain ⟨h1, h2⟩ := hg l x h (hq x (by simp))
    obtain ⟨h3, h4⟩ := foldl_grows hg xs (g l x) h1 (fun y hy => hq y (by simp [hy]))
    exact ⟨h3, fun m hm => h4 m (h2 m hm)⟩

/-- What is reached in a fold stays reached. -/
theorem foldl_reaches {α : Type} {g : List Nat → α → List Nat} {P : List Nat → Prop} {Q : α → Prop} (hg : ∀ l x, P l → Q x → P (g l x) ∧ ∀ m ∈ l, m ∈ g l x)
    {R : α → Nat} (hr : ∀ l x, P l → Q x → R x ∈ g l x) :
    ∀ (xs : List α) (l : List Nat), P l → (∀ x ∈ xs, Q x) → ∀ x ∈ xs, R x ∈ xs.foldl g l
  | [], _, _, _, _, hx => by cases hx
  | y :: xs, l, h, hq, x, hx => by
    have h1 := hg l y h (hq y (by simp))
    rcases List.mem_cons.1 hx with rfl | hx
    · exact (foldl_grows hg xs (g l x) h1.1 (fun z hz => hq z (by simp [hz]))).2 _ (hr l x h (hq x (by simp)))
    · exact foldl_reaches hg hr xs (g l y) h1.1 (fun z hz => hq z (by simp [hz])) x hx

section
variable {N : Ntk} (hf : ∀ i < N.size, ∀ f ∈ (N.node i).fanins, f < i) {perm : Nat → List Nat → List Nat} (hp : ∀ n l, (perm n l).Perm l)
include hf hp

theorem down_spec : ∀ (fuel : Nat) (acc : List Nat) (n : Nat), Sorted N acc → n < N.size → n < fuel →
    Sorted N (down N perm fuel acc n) ∧ (∀ m ∈ acc, m ∈ down N perm fuel acc n) ∧ n ∈ down N perm fuel acc n
  | 0, _, _, _, _, h => absurd h (by omega)
  | fuel + 1, acc, n, hs, hn, hlt => by
    unfold down
    by_cases hm : n ∈ acc
    · rw [if_pos hm]
      exact ⟨hs, fun _ h => h, hm⟩
    · rw [if_neg hm]
      have hq : ∀ x ∈ perm n (N.node n).fanins, x < n := fun x hx => hf n hn x ((hp n _).mem_iff.1 hx)
      -- nodes up to `n` do not add `n`
      have hg : ∀ l x, (Sorted N l ∧ n ∉ l) → x < n → (Sorted N (down N perm fuel l x) ∧ n ∉ down N perm fuel l x) ∧ ∀ m ∈ l, m ∈ down N perm fuel l x := by
        intro l x hl hx
        obtain ⟨h1, h2, h3⟩ := down_spec fuel l x hl.1 (by omega) (by omega)
        refine ⟨⟨h1, ?_⟩, h2⟩
        intro hc
        -- the nodes added are at most `x`
        have key : ∀ (fuel : Nat) (l : List Nat) (x : Nat), x < N.size → ∀ m ∈ down N perm fuel l x, m ∈ l ∨ m ≤ x := by
          intro fuel
          induction fuel with
          | zero => intro l x _ m hm; exact .inl hm
          | succ fuel ih =>
            intro l x hx m hm
            unfold down at hm
            split_ifs at hm
            · exact .inl hm
            · rw [List.mem_append, List.mem_singleton] at hm
              rcases hm with hm | hm
              · have : ∀ (xs : List Nat) (l : List Nat), (∀ y ∈ xs, y < x) → ∀ m ∈ xs.foldl (down N perm fuel) l, m ∈ l ∨ m ≤ x := by
                  intro xs
                  induction xs with
                  | nil => intro l _ m hm; exact .inl hm
                  | cons y xs ih2 =>
                    intro l hy m hm
                    rw [List.foldl_cons] at hm
                    have hyx := hy y (by simp)
                    rcases ih2 _ (fun z hz => hy z (by simp [hz])) m hm with h | h
                    · rcases ih l y (by omega) m h with h | h
                      · exact .inl h
                      · exact .inr (by omega)
                    · exact .inr h
                exact this _ l (fun y hy => hf x hx y ((hp x _).mem_iff.1 hy)) m hm
              · exact .inr (by omega)
        rcases key fuel l x (by omega) n hc with h | h
        · exact hl.2 h
        · omega
      obtain ⟨⟨h1, h2⟩, h3⟩ := foldl_grows (Q := fun x => x < n) hg (perm n (N.node n).fanins) acc ⟨hs, hm⟩ hq
      have h4 := foldl_reaches (Q := fun x => x < n) (R := id) hg (fun l x hl hx => (down_spec fuel l x hl.1 (by omega) (by omega)).2.2)
        (perm n (N.node n).fanins) acc ⟨hs, hm⟩ hq
      refine ⟨h1.snoc hn h2 (fun f hff => h4 f ((hp n _).mem_iff.2 hff)), ?_, by simp⟩
      intro m hmm
      rw [List.mem_append]
      exact .inl (h3 m hmm)

omit hf hp in
/-- All fanins have been visited. -/
def Ready (N : Ntk) (acc : List Nat) (n : Nat) : Prop := ∀ f ∈ (N.node n).fanins, f ∈ acc

omit hf hp in
theorem mem_fanouts_iff {n m : Nat} : m ∈ N.fanouts n ↔ n ∈ (N.node m).fanins := by
  unfold Ntk.fanouts
  rw [List.mem_filter, List.mem_range, decide_eq_true_eq]
  constructor
  · exact fun h => h.2
  · intro h
    refine ⟨?_, h⟩
    by_contra hc
    rw [Ntk.node_ge N m (by omega)] at h
    cases h

theorem up_spec : ∀ (fuel : Nat) (acc : List Nat) (n : Nat), Sorted N acc → n < N.size → N.size ≤ n + fuel →
    Sorted N (up N perm fuel acc n) ∧ (∀ m ∈ acc, m ∈ up N perm fuel acc n) ∧ (Ready N acc n → n ∈ up N perm fuel acc n) ∧
      ∀ m, m ∉ up N perm fuel acc n → Ready N (up N perm fuel acc n) m → Ready N acc m
  | 0, _, _, _, _, h => absurd h (by omega)
  | fuel + 1, acc, n, hs, hn, hlt => by
    unfold up
    by_cases hc : ((N.node n).fanins.all (fun f => decide (f ∈ acc)) && decide (n ∉ acc)) = true
    · rw [if_pos hc]
      rw [Bool.and_eq_true, List.all_eq_true, decide_eq_true_eq] at hc
      obtain ⟨hr, hm⟩ := hc
      have hs1 : Sorted N (acc ++ [n]) := hs.snoc hn hm (fun f hff => by simpa using hr f hff)
      have hq : ∀ x ∈ perm n (N.fanouts n), n < x ∧ x < N.size := by
        intro x hx
        have hx' := mem_fanouts_iff.1 ((hp n _).mem_iff.1 hx)
        have hxs : x < N.size := by
          by_contra hcc
          rw [Ntk.node_ge N x (by omega)] at hx'
          cases hx'
        exact ⟨hf x hxs n hx', hxs⟩
      -- the loop over the fanouts
      have loop : ∀ (xs : List Nat) (l : List Nat), Sorted N l → (∀ x ∈ xs, n < x ∧ x < N.size) →
          Sorted N (xs.foldl (up N perm fuel) l) ∧ (∀ m ∈ l, m ∈ xs.foldl (up N perm fuel) l) ∧
          ∀ m, m ∉ xs.foldl (up N perm fuel) l → Ready N (xs.foldl (up N perm fuel) l) m → Ready N l m ∧ m ∉ xs := by
        intro xs
        induction xs with
        | nil => intro l hl _; exact ⟨hl, fun _ h => h, fun m _ h => ⟨h, by simp⟩⟩
        | cons x xs ih =>
          intro l hl hx
          have hxx := hx x (by simp)
          obtain ⟨a1, a2, a3, a4⟩ := up_spec fuel l x hl hxx.2 (by omega)
          obtain ⟨b1, b2, b3⟩ := ih (up N perm fuel l x) a1 (fun y hy => hx y (by simp [hy]))
          rw [List.foldl_cons]
          refine ⟨b1, fun m hm => b2 m (a2 m hm), ?_⟩
          intro m hm hrm
          obtain ⟨c1, c2⟩ := b3 m hm hrm
          have hmu : m ∉ up N perm fuel l x := fun h => hm (b2 m h)
          have c3 := a4 m hmu c1
          refine ⟨c3, ?_⟩
          rw [List.mem_cons, not_or]
          refine ⟨?_, c2⟩
          rintro rfl
          exact hmu (a3 c3)
      obtain ⟨d1, d2, d3⟩ := loop _ _ hs1 hq
      refine ⟨d1, fun m hm => d2 m (by simp [hm]), fun _ => d2 n (by simp), ?_⟩
      intro m hmm hrm
      obtain ⟨e1, e2⟩ := d3 m hmm hrm
      intro f hff
      have := e1 f hff
      rw [List.mem_append, List.mem_singleton] at this
      rcases this with h | rfl
      · exact h
      · exact absurd ((hp f _).mem_iff.2 (mem_fanouts_iff.2 hff)) e2
    · rw [if_neg hc]
      refine ⟨hs, fun _ h => h, ?_, fun _ _ h => h⟩
      intro hr
      by_contra hm
      apply hc
      rw [Bool.and_eq_true, List.all_eq_true, decide_eq_true_eq]
      exact ⟨fun f hff => by simpa using hr f hff, hm⟩

end

/-- What a network needs for its nodes to be placed. -/
structure Orderly (N : Ntk) (k : Nat) : Prop where
  wf : N.WF k
  fed : ∀ n, (N.node n).isGate = true → (N.node n).fanins ≠ []
  noConst : ∀ n, ∀ f ∈ (N.node n).fanins, (N.node f).isConst = false
  /-- Outputs are gates that drive nothing else. -/
  posGate : ∀ p ∈ N.pos, (N.node p).isGate = true
  posFree : ∀ p ∈ N.pos, N.fanoutSize p = 1

theorem consts_sorted {N : Ntk} {k : Nat} (h : N.WF k) : Sorted N [0, 1] ∧ ∀ n, n < N.size → ((N.node n).isConst = true ↔ n = 0 ∨ n = 1) := by
  obtain ⟨l, hl, hc⟩ := h.consts
  have hsz : N.size = l.length + 2 := by unfold Ntk.size; rw [hl]; rfl
  have h0 : N.node 0 = .const false := by unfold Ntk.node; rw [hl]; rfl
  have h1 : N.node 1 = .const true := by unfold Ntk.node; rw [hl]; rfl
  refine ⟨⟨by simp, ?_, ?_⟩, ?_⟩
  · intro n hn
    simp at hn
    omega
  · intro a n r e f hff
    have hn : n = 0 ∨ n = 1 := by
      have : n ∈ [0, 1] := by rw [e]; simp
      simpa using this
    rcases hn with rfl | rfl
    · rw [h0] at hff; cases hff
    · rw [h1] at hff; cases hff
  · intro n hn
    constructor
    · intro hcn
      by_contra hne
      have hnode : N.node n = l.getD (n - 2) (.const false) := by
        unfold Ntk.node
        rw [hl]
        obtain ⟨m, rfl⟩ : ∃ m, n = m + 2 := ⟨n - 2, by omega⟩
        simp [List.getD_eq_getElem?_getD]
      have hlt : n - 2 < l.length := by omega
      rw [hnode, List.getD_eq_getElem?_getD, List.getElem?_eq_getElem hlt] at hcn
      have := hc l[n - 2] (List.getElem_mem hlt)
      simp [this] at hcn
    · rintro (rfl | rfl)
      · rw [h0]; rfl
      · rw [h1]; rfl

theorem Orderly.notFanin {N : Ntk} {k : Nat} (h : Orderly N k) {p n : Nat} (hp : p ∈ N.pos) : p ∉ (N.node n).fanins := by
  intro hm
  have h1 := h.posFree p hp
  have h2 := List.count_pos_iff.2 hp
  unfold Ntk.fanoutSize at h1
  have hn : n < N.size := by
    by_contra hc
    rw [Ntk.node_ge N n (by omega)] at hm
    cases hm
  have h3 : (N.nodes.map (fun x => x.fanins.count p)).sum = 0 := by omega
  rw [List.sum_eq_zero_iff] at h3
  have h4 : (N.node n).fanins.count p ∈ N.nodes.map (fun x => x.fanins.count p) := by
    rw [List.mem_map]
    refine ⟨N.node n, ?_, rfl⟩
    unfold Ntk.node
    rw [List.getD_eq_getElem?_getD, List.getElem?_eq_getElem hn]
    exact List.getElem_mem hn
  have h5 := h3 _ h4
  have h6 := List.count_pos_iff.2 hm
  omega

/-- Both orders visit every node once and after its fanins, and the drivers of all outputs. -/
theorem topoOrder_spec {N : Ntk} {k : Nat} (h : Orderly N k) (ciToCo : Bool) {perm : Nat → List Nat → List Nat} (hp : ∀ n l, (perm n l).Perm l)
    {starts : List Nat} (hs : starts.Perm (if ciToCo then N.pis else N.pos)) :
    Sorted N (topoOrder N ciToCo perm starts) ∧ ∀ p ∈ N.pos, p ∈ topoOrder N ciToCo perm starts := by
  obtain ⟨h0, hcst⟩ := consts_sorted h.wf
  cases ciToCo
  · unfold topoOrder
    simp only [Bool.false_eq_true, if_false] at hs ⊢
    have hg : ∀ l x, Sorted N l → x < N.size → Sorted N (down N perm N.size l x) ∧ ∀ m ∈ l, m ∈ down N perm N.size l x :=
      fun l x hl hx => ⟨(down_spec h.wf.fanins hp _ l x hl hx hx).1, (down_spec h.wf.fanins hp _ l x hl hx hx).2.1⟩
    have hq : ∀ x ∈ starts, x < N.size := fun x hx => h.wf.pos x (hs.mem_iff.1 hx)
    refine ⟨(foldl_grows (Q := fun x => x < N.size) hg starts _ h0 hq).1, ?_⟩
    intro p hpp
    exact foldl_reaches (Q := fun x => x < N.size) (R := id) hg (fun l x hl hx => (down_spec h.wf.fanins hp _ l x hl hx hx).2.2) starts _ h0 hq p
      (hs.mem_iff.2 hpp)
  · unfold topoOrder
    simp only [if_true] at hs ⊢
    have hq : ∀ x ∈ starts, x < N.size := by
      intro x hx
      have := hs.mem_iff.1 hx
      unfold Ntk.pis at this
      rw [List.mem_filter, List.mem_range] at this
      exact this.1
    have hg : ∀ l x, Sorted N l → x < N.size → Sorted N (up N perm N.size l x) ∧ ∀ m ∈ l, m ∈ up N perm N.size l x :=
      fun l x hl hx => ⟨(up_spec h.wf.fanins hp _ l x hl hx (by omega)).1, (up_spec h.wf.fanins hp _ l x hl hx (by omega)).2.1⟩
    have hpis : ∀ x ∈ N.pis, x ∈ starts.foldl (up N perm N.size) [0, 1] := by
      intro x hx
      refine foldl_reaches (Q := fun x => x < N.size ∧ (N.node x).fanins = []) (R := id) (fun l x hl hx => hg l x hl hx.1)
        (fun l x hl hx => (up_spec h.wf.fanins hp _ l x hl hx.1 (by omega)).2.2.1 (by intro f hf; rw [hx.2] at hf; cases hf))
        starts _ h0 ?_ x (hs.mem_iff.2 hx)
      intro y hy
      refine ⟨hq y hy, ?_⟩
      have := hs.mem_iff.1 hy
      unfold Ntk.pis at this
      rw [List.mem_filter] at this
      revert this
      cases N.node y <;> simp [Networks.Node.isPi, Networks.Node.fanins]
    -- nothing is left behind
    have hleft : ∀ (xs : List Nat) (l : List Nat), Sorted N l → (∀ x ∈ xs, x < N.size) →
        ∀ m, m ∉ xs.foldl (up N perm N.size) l → Ready N (xs.foldl (up N perm N.size) l) m → Ready N l m := by
      intro xs
      induction xs with
      | nil => intro l _ _ m _ h; exact h
      | cons x xs ih =>
        intro l hl hx m hm hr
        have hxx := hx x (by simp)
        obtain ⟨a1, a2, -, a4⟩ := up_spec h.wf.fanins hp N.size l x hl hxx (by omega)
        rw [List.foldl_cons] at hm hr
        have hb := ih _ a1 (fun y hy => hx y (by simp [hy])) m hm hr
        refine a4 m (fun hc => hm ?_) hb
        exact (foldl_grows (Q := fun x => x < N.size) hg xs _ a1 (fun y hy => hx y (by simp [hy]))).2 m hc
    refine ⟨(foldl_grows (Q := fun x => x < N.size) hg starts _ h0 hq).1, ?_⟩
    have all : ∀ n, n < N.size → n ∈ starts.foldl (up N perm N.size) [0, 1] := by
      intro n
      induction n using Nat.strong_induction_on with
      | _ n ih =>
        intro hn
        cases hc : (N.node n).isConst with
        | true =>
          have := (hcst n hn).1 hc
          exact (foldl_grows (Q := fun x => x < N.size) hg starts _ h0 hq).2 n (by simpa using this)
        | false =>
          cases hpi : (N.node n).isPi with
          | true =>
            refine hpis n ?_
            unfold Ntk.pis
            rw [List.mem_filter, List.mem_range]
            exact ⟨hn, hpi⟩
          | false =>
            by_contra hm
            have hgt : (N.node n).isGate = true := by
              revert hc hpi
              cases N.node n <;> simp [Networks.Node.isConst, Networks.Node.isPi, Networks.Node.isGate]
            have hr := hleft starts _ h0 hq n hm (fun f hf => ih f (h.wf.fanins n hn f hf) (lt_trans (h.wf.fanins n hn f hf) hn))
            obtain ⟨f, hf⟩ := List.exists_mem_of_ne_nil _ (h.fed n hgt)
            have hfs := lt_trans (h.wf.fanins n hn f hf) hn
            have := (hcst f hfs).2 (by simpa using hr f hf)
            rw [h.noConst n f hf] at this
            cases this
    exact fun p hpp => all p (h.wf.pos p hpp)

/-- The nodes to place: every node once, after its fanins, the outputs last. -/
theorem nodesToPlace_spec {N : Ntk} {k : Nat} (h : Orderly N k) {topo : List Nat} (ht : Sorted N topo) (hp : ∀ p ∈ N.pos, p ∈ topo) :
    (nodesToPlace N topo).Nodup ∧ (∀ n ∈ nodesToPlace N topo, n < N.size ∧ (N.node n).isConst = false) ∧
    (∀ l n r, nodesToPlace N topo = l ++ n :: r → ∀ f ∈ (N.node n).fanins, f ∈ l) := by
  have hpn : N.pos.Nodup := by
    rw [List.nodup_iff_count_le_one]
    intro p
    by_cases hpp : p ∈ N.pos
    · have := h.posFree p hpp
      unfold Ntk.fanoutSize at this
      omega
    · rw [List.count_eq_zero_of_not_mem hpp]; omega
  have hbody : ∀ n, n ∈ topo.filter (fun n => !(N.node n).isConst && !decide (n ∈ N.pos)) ↔ n ∈ topo ∧ (N.node n).isConst = false ∧ n ∉ N.pos := by
    intro n
    rw [List.mem_filter]
    simp
  refine ⟨?_, ?_, ?_⟩
  · unfold nodesToPlace
    rw [List.nodup_append]
    refine ⟨ht.nodup.filter _, hpn, ?_⟩
    rintro a ha b hb rfl
    exact ((hbody a).1 ha).2.2 hb
  · intro n hn
    unfold nodesToPlace at hn
    rw [List.mem_append] at hn
    rcases hn with hn | hn
    · have := (hbody n).1 hn
      exact ⟨ht.lt n this.1, this.2.1⟩
    · refine ⟨h.wf.pos n hn, ?_⟩
      have := h.posGate n hn
      revert this
      cases N.node n <;> simp [Networks.Node.isConst, Networks.Node.isGate]
  · intro l n r e f hf
    -- a fanin is in the body
    have hfb : f ∈ topo → f ∈ topo.filter (fun n => !(N.node n).isConst && !decide (n ∈ N.pos)) := by
      intro hft
      exact (hbody f).2 ⟨hft, h.noConst n f hf, fun hc => h.notFanin hc hf⟩
    unfold nodesToPlace at e
    rcases List.append_eq_append_iff.1 e with ⟨c, h1, h2⟩ | ⟨c, h1, h2⟩
    · -- an output
      rw [h1, List.mem_append]
      refine .inl (hfb ?_)
      have hnp : n ∈ N.pos := by rw [h2]; simp
      obtain ⟨a, b, hab⟩ := List.append_of_mem (hp n hnp)
      have := ht.fanins a n b hab f hf
      rw [hab]
      exact List.mem_append_left _ this
    · -- within the body
      cases c with
      | nil =>
        rw [List.append_nil] at h1
        rw [← h1]
        refine hfb ?_
        rw [List.nil_append] at h2
        have hnp : n ∈ N.pos := by rw [← h2]; simp
        obtain ⟨a, b, hab⟩ := List.append_of_mem (hp n hnp)
        have := ht.fanins a n b hab f hf
        rw [hab]
        exact List.mem_append_left _ this
      | cons x c =>
        rw [List.cons_append, List.cons.injEq] at h2
        obtain ⟨rfl, -⟩ := h2
        obtain ⟨t1, t2, e1, e2, e3⟩ := List.filter_eq_append_iff.1 h1
        obtain ⟨u1, u2, f1, f2, f3, f4⟩ := List.filter_eq_cons_iff.1 e3
        have hft : f ∈ t1 ++ u1 := ht.fanins (t1 ++ u1) n u2 (by rw [e1, f1]; simp) f hf
        have hfm := hfb (by rw [e1, f1]; simp only [List.mem_append, List.mem_cons] at hft ⊢; tauto)
        have hpf := (List.mem_filter.1 hfm).2
        rw [List.mem_append] at hft
        rcases hft with hft | hft
        · rw [← e2, List.mem_filter]
          exact ⟨hft, hpf⟩
        · exact absurd hpf (f2 f hft)

end Verif.PhysicalDesign.Gold
