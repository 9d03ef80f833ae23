import Verif.Networks.BalanceProps

/-!
# C34: inverse levels are longest distances to a sink
-/
namespace Verif.Networks

/-- Spec: a path along fanouts, as the list of its nodes. -/
def FanoutPath (N : Ntk) (p : List Nat) : Prop := p.IsChain (fun u w => w < N.size ∧ u ∈ (N.node w).fanins)

/-- Spec: `d` is the length of the longest path from `n` to a node without fanouts. -/
structure IsInvLevel (N : Ntk) (n d : Nat) : Prop where
  path : ∃ p : List Nat, FanoutPath N p ∧ p.head? = some n ∧ p.length = d + 1 ∧ ∃ s, p.getLast? = some s ∧ N.fanouts s = []
  longest : ∀ p : List Nat, FanoutPath N p → p.head? = some n → p.length ≤ d + 1

/-- Spec: all sinks reachable from `n` are outputs. -/
def NoDangling (N : Ntk) (n : Nat) : Prop :=
  ∀ p : List Nat, FanoutPath N p → p.head? = some n → ∀ s, p.getLast? = some s → N.fanouts s = [] → s ∈ N.pos

theorem mem_fanouts (N : Ntk) (n m : Nat) : m ∈ N.fanouts n ↔ m < N.size ∧ n ∈ (N.node m).fanins := by
  unfold Ntk.fanouts; simp

theorem IsInvLevel.zero {N : Ntk} {n : Nat} (h : N.fanouts n = []) : IsInvLevel N n 0 := by
  refine ⟨⟨[n], by simp [FanoutPath], rfl, rfl, n, rfl, h⟩, ?_⟩
  intro p hp hh
  match p, hp, hh with
  | [a], _, _ => simp
  | a :: b :: l, hp, hh =>
    exfalso
    simp at hh; subst hh
    unfold FanoutPath at hp
    rw [List.isChain_cons_cons] at hp
    have : b ∈ N.fanouts a := (mem_fanouts N a b).2 hp.1
    rw [h] at this; simp at this

theorem IsInvLevel.succ {N : Ntk} {n : Nat} (h : N.fanouts n ≠ []) (lvl : Nat → Nat)
    (hl : ∀ m ∈ N.fanouts n, IsInvLevel N m (lvl m)) :
    IsInvLevel N n (((N.fanouts n).map lvl).foldl max 0 + 1) := by
  refine ⟨?_, ?_⟩
  · have hm : ∃ m ∈ N.fanouts n, lvl m = ((N.fanouts n).map lvl).foldl max 0 := by
      rcases foldl_max_mem ((N.fanouts n).map lvl) 0 with e | e
      · obtain ⟨m, hm⟩ := List.exists_mem_of_ne_nil _ h
        refine ⟨m, hm, ?_⟩
        have := le_foldl_max ((N.fanouts n).map lvl) 0 _ (List.mem_map_of_mem hm)
        omega
      · rw [List.mem_map] at e
        obtain ⟨m, hm, e⟩ := e
        exact ⟨m, hm, e⟩
    obtain ⟨m, hm, e⟩ := hm
    obtain ⟨p, p1, p2, p3, s, p4, p5⟩ := (hl m hm).path
    match p, p1, p2, p3, p4 with
    | a :: l, p1, p2, p3, p4 =>
      simp at p2; subst p2
      refine ⟨n :: a :: l, ?_, rfl, by rw [← e]; simp at p3 ⊢; omega, s, ?_, p5⟩
      · unfold FanoutPath at p1 ⊢
        rw [List.isChain_cons_cons]
        exact ⟨(mem_fanouts N n a).1 hm, p1⟩
      · rw [List.getLast?_cons_cons]; exact p4
  · intro p hp hh
    match p, hp, hh with
    | [a], _, _ => simp
    | a :: b :: l, hp, hh =>
      simp at hh; subst hh
      unfold FanoutPath at hp
      rw [List.isChain_cons_cons] at hp
      have hb : b ∈ N.fanouts a := (mem_fanouts N a b).2 hp.1
      have h1 := (hl b hb).longest (b :: l) hp.2 rfl
      have h2 := le_foldl_max ((N.fanouts a).map lvl) 0 _ (List.mem_map_of_mem hb)
      simp at h1 ⊢
      omega

theorem IsInvLevel.unique {N : Ntk} {n d d' : Nat} (h : IsInvLevel N n d) (h' : IsInvLevel N n d') : d = d' := by
  obtain ⟨p, p1, p2, p3, -⟩ := h.path
  obtain ⟨q, q1, q2, q3, -⟩ := h'.path
  have := h.longest q q1 q2
  have := h'.longest p p1 p2
  omega

/-- Invariant: discovered nodes have their final level and only discovered fanouts. -/
structure InvInv (N : Ntk) (st : InvState) : Prop where
  level : ∀ n, st.disc n = true → IsInvLevel N n (st.lvl n)
  zero : ∀ n, st.disc n = false → st.lvl n = 0

/-- Nodes that could be discovered but have not been. -/
def Ready (N : Ntk) (st : InvState) (m : Nat) : Prop :=
  st.disc m = false ∧ N.fanouts m ≠ [] ∧ ∀ f ∈ N.fanouts m, st.disc f = true

theorem jdfs_spec (N : Ntk) (hw : ∀ i < N.size, ∀ f ∈ (N.node i).fanins, f < i) : ∀ (fuel n : Nat), n < fuel → n < N.size →
    ∀ (st : InvState) (P : Nat → Prop), InvInv N st → (∀ m, Ready N st m → P m ∨ m = n) →
    InvInv N (invJdfs N fuel n st) ∧ (∀ m, Ready N (invJdfs N fuel n st) m → P m) ∧
    (∀ m, st.disc m = true → (invJdfs N fuel n st).disc m = true) ∧
    ((∀ f ∈ N.fanouts n, st.disc f = true) → (invJdfs N fuel n st).disc n = true) := by
  intro fuel
  induction fuel with
  | zero => intro n h; omega
  | succ fuel ih =>
    intro n hn hns st P hi hr
    rw [invJdfs]
    dsimp only
    by_cases hall : (N.fanouts n).all st.disc = true
    · rw [if_pos hall]
      rw [List.all_eq_true] at hall
      -- the new state before the fanins are visited
      have hlev : IsInvLevel N n (if N.fanouts n = [] then 0 else max (st.lvl n) (((N.fanouts n).map st.lvl).foldl max 0 + 1)) := by
        split
        · rename_i e; exact .zero e
        · rename_i e
          have h1 := IsInvLevel.succ e st.lvl (fun m hm => hi.level m (hall m hm))
          by_cases hd : st.disc n = true
          · have h2 := h1.unique (hi.level n hd)
            rw [h2, max_self]; exact hi.level n hd
          · rw [hi.zero n (by simpa using hd), Nat.zero_max]; exact h1
      generalize (if N.fanouts n = [] then 0 else max (st.lvl n) (((N.fanouts n).map st.lvl).foldl max 0 + 1)) = l at hlev
      -- visiting the fanins
      have fold : ∀ (fs : List Nat), (∀ f ∈ fs, f < fuel ∧ f < N.size) → ∀ (s : InvState), InvInv N s →
          (∀ m, Ready N s m → P m ∨ m ∈ fs) → s.disc n = true → 
          InvInv N (fs.foldl (fun st f => if st.disc f then st else invJdfs N fuel f st) s) ∧
          (∀ m, Ready N (fs.foldl (fun st f => if st.disc f then st else invJdfs N fuel f st) s) m → P m) ∧
          (∀ m, s.disc m = true → (fs.foldl (fun st f => if st.disc f then st else invJdfs N fuel f st) s).disc m = true) := by
        intro fs
        induction fs with
        | nil => intro _ s h1 h2 _; exact ⟨h1, fun m hm => (h2 m hm).resolve_right (by simp), fun _ => id⟩
        | cons f fs ihf =>
          intro hfs s h1 h2 h3
          rw [List.foldl_cons]
          have hf := hfs f (List.mem_cons_self ..)
          by_cases hd : s.disc f = true
          · rw [if_pos hd]
            exact ihf (fun g hg => hfs g (List.mem_cons_of_mem _ hg)) s h1 (by
              intro m hm
              rcases h2 m hm with h | h
              · exact Or.inl h
              · rcases List.mem_cons.1 h with h | h
                · subst h; rw [hm.1] at hd; cases hd
                · exact Or.inr h) h3
          · rw [if_neg hd]
            obtain ⟨a1, a2, a3, -⟩ := ih f hf.1 hf.2 s (fun m => P m ∨ m ∈ fs) h1 (by
              intro m hm
              rcases h2 m hm with h | h
              · exact Or.inl (Or.inl h)
              · rcases List.mem_cons.1 h with h | h
                · exact Or.inr h
                · exact Or.inl (Or.inr h))
            obtain ⟨b1, b2, b3⟩ := ihf (fun g hg => hfs g (List.mem_cons_of_mem _ hg)) _ a1 a2 (a3 n h3)
            exact ⟨b1, b2, fun m hm => b3 m (a3 m hm)⟩
      obtain ⟨a1, a2, a3⟩ := fold (N.node n).fanins (by
          intro f hf
          have := hw n hns f hf
          omega)
        ⟨fun m => if m = n then true else st.disc m, fun m => if m = n then l else st.lvl m⟩ (by
          refine ⟨?_, ?_⟩
          · intro m hm
            dsimp only at hm ⊢
            by_cases e : m = n
            · subst e; rw [if_pos rfl]; exact hlev
            · rw [if_neg e] at hm ⊢; exact hi.level m hm
          · intro m hm
            dsimp only at hm ⊢
            by_cases e : m = n
            · rw [if_pos e] at hm; cases hm
            · rw [if_neg e] at hm ⊢; exact hi.zero m hm) (by
          rintro m ⟨r1, r2, r3⟩
          dsimp only at r1 r3
          by_cases e : m = n
          · rw [if_pos e] at r1; cases r1
          · rw [if_neg e] at r1
            by_cases hmem : m ∈ (N.node n).fanins
            · exact Or.inr hmem
            · refine Or.inl ((hr m ⟨r1, r2, ?_⟩).resolve_right e)
              intro f hf
              have := r3 f hf
              rw [if_neg] at this
              · exact this
              · intro e2
                subst e2
                exact hmem ((mem_fanouts N m f).1 hf).2) (by simp)
      refine ⟨a1, a2, ?_, ?_⟩
      · intro m hm
        apply a3
        dsimp only
        split
        · rfl
        · exact hm
      · intro _
        apply a3
        simp
    · rw [if_neg hall]
      refine ⟨hi, ?_, fun _ => id, ?_⟩
      · intro m hm
        refine (hr m hm).resolve_right ?_
        intro e
        subst e
        exact hall (List.all_eq_true.2 hm.2.2)
      · intro h
        exact absurd (List.all_eq_true.2 h) hall

/-- The reported inverse level is the length of the longest path to a node without fanouts, for every node
all of whose reachable sinks are outputs. For nodes with other sinks it is false, see `C34_dangling`. -/
theorem C34_inverse_levels (N : Ntk) (k : Nat) (hN : N.WF k) (n : Nat) (hn : n < N.size) (hd : NoDangling N n) :
    IsInvLevel N n (inverseLevels N n) := by
  have fold : ∀ (ps : List Nat), (∀ p ∈ ps, p < N.size) → ∀ (st : InvState), InvInv N st → (∀ m, ¬ Ready N st m) →
      InvInv N (ps.foldl (fun st p => invJdfs N N.size p st) st) ∧
      (∀ m, ¬ Ready N (ps.foldl (fun st p => invJdfs N N.size p st) st) m) ∧
      (∀ m, st.disc m = true → (ps.foldl (fun st p => invJdfs N N.size p st) st).disc m = true) ∧
      (∀ p ∈ ps, N.fanouts p = [] → (ps.foldl (fun st p => invJdfs N N.size p st) st).disc p = true) := by
    intro ps
    induction ps with
    | nil => intro _ st h1 h2; exact ⟨h1, h2, fun _ => id, by simp⟩
    | cons p ps ih =>
      intro hps st h1 h2
      rw [List.foldl_cons]
      have hp := hps p (List.mem_cons_self ..)
      obtain ⟨a1, a2, a3, a4⟩ := jdfs_spec N hN.fanins N.size p hp hp st (fun _ => False) h1
        (fun m hm => absurd hm (h2 m))
      obtain ⟨b1, b2, b3, b4⟩ := ih (fun q hq => hps q (List.mem_cons_of_mem _ hq)) _ a1 a2
      refine ⟨b1, b2, fun m hm => b3 m (a3 m hm), ?_⟩
      intro q hq hf
      rcases List.mem_cons.1 hq with e | hq
      · subst e
        exact b3 q (a4 (by rw [hf]; simp))
      · exact b4 q hq hf
  obtain ⟨c1, c2, -, c4⟩ := fold N.pos hN.pos ⟨fun _ => false, fun _ => 0⟩
    ⟨fun _ h => (Bool.false_ne_true h).elim, fun _ _ => rfl⟩ (by
      rintro m ⟨-, h2, h3⟩
      obtain ⟨f, hf⟩ := List.exists_mem_of_ne_nil _ h2
      have := h3 f hf
      cases this)
  unfold inverseLevels
  apply c1.level
  generalize N.pos.foldl (fun st p => invJdfs N N.size p st) ⟨fun _ => false, fun _ => 0⟩ = st at c1 c2 c4
  have key : ∀ (m n : Nat), N.size - n = m → n < N.size → NoDangling N n → st.disc n = true := by
    intro m
    induction m using Nat.strong_induction_on with
    | _ m ih =>
      intro n hm hn hd
      by_cases hf : N.fanouts n = []
      · exact c4 n (hd [n] (by simp [FanoutPath]) rfl n rfl hf) hf
      · by_contra hnd
        refine c2 n ⟨by simpa using hnd, hf, ?_⟩
        intro f hff
        obtain ⟨g1, g2⟩ := (mem_fanouts N n f).1 hff
        have hlt := hN.fanins f g1 n g2
        refine ih (N.size - f) (by omega) f rfl g1 ?_
        intro p hp hh s hl hs
        refine hd (n :: p) ?_ rfl s ?_ hs
        · match p, hp, hh with
          | a :: l, hp, hh =>
            simp at hh; subst hh
            unfold FanoutPath at hp ⊢
            rw [List.isChain_cons_cons]
            exact ⟨⟨g1, g2⟩, hp⟩
        · match p, hh, hl with
          | a :: l, _, hl => rw [List.getLast?_cons_cons]; exact hl
  exact key _ n rfl hn hd

/-- In particular for every node of a network without dangling nodes. -/
theorem C34_no_dangling (N : Ntk) (k : Nat) (hN : N.WF k) (h : ∀ s < N.size, N.fanouts s = [] → s ∈ N.pos) (n : Nat)
    (hn : n < N.size) : IsInvLevel N n (inverseLevels N n) := by
  apply C34_inverse_levels N k hN n hn
  intro p hp hh s hl hs
  refine h s ?_ hs
  match p, hp, hh, hl with
  | [a], _, hh, hl => simp at hh hl; subst hh; subst hl; exact hn
  | a :: b :: l, hp, _, hl =>
    -- the last node of a path of length at least two is a fanout of another node
    have : ∀ (l : List Nat) (a b : Nat), FanoutPath N (a :: b :: l) → ∀ s, (a :: b :: l).getLast? = some s → s < N.size := by
      intro l
      induction l with
      | nil =>
        intro a b hp s hl
        unfold FanoutPath at hp
        rw [List.isChain_cons_cons] at hp
        simp at hl; subst hl; exact hp.1.1
      | cons c l ih =>
        intro a b hp s hl
        unfold FanoutPath at hp
        rw [List.isChain_cons_cons] at hp
        exact ih b c hp.2 s (by rw [List.getLast?_cons_cons] at hl; exact hl)
    exact this l a b hp s hl

/-- An input that drives an output gate and a dangling gate. -/
def exDangling : Ntk :=
  ⟨[.const false, .const true, .pi 0, .gate (fun l => !l.all id) [2], .gate (fun l => !l.all id) [2]], [3]⟩

/-- With a dangling gate the input is reported to be a sink, although its longest path to a sink has
length one. -/
theorem C34_dangling : IsInvLevel exDangling 2 1 ∧ inverseLevels exDangling 2 = 0 := by
  refine ⟨⟨⟨[2, 3], ?_, rfl, rfl, 3, rfl, by decide⟩, ?_⟩, by decide⟩
  · unfold FanoutPath
    rw [List.isChain_cons_cons]
    exact ⟨by decide, by simp⟩
  · intro p hp hh
    match p, hp, hh with
    | [_], _, _ => simp
    | [_, _], _, _ => simp
    | a :: b :: c :: l, hp, hh =>
      exfalso
      unfold FanoutPath at hp
      rw [List.isChain_cons_cons, List.isChain_cons_cons] at hp
      obtain ⟨h1, h2, -⟩ := hp
      have hc : c < 5 := h2.1
      have hb : b < 5 := h1.1
      have hbc := h2.2
      have hab := h1.2
      simp at hh; subst hh
      interval_cases c <;> simp [Ntk.node, exDangling, Node.fanins] at hbc
      all_goals (subst hbc; simp [Ntk.node, exDangling, Node.fanins] at hab)

/-- Non-vacuity: a network without dangling nodes with different inverse levels. -/
example : exUnbalanced.WF 2 ∧ (List.range 7).map (inverseLevels exUnbalanced) = [0, 0, 3, 1, 2, 1, 0] ∧
    NoDangling exUnbalanced 2 := by
  refine ⟨exUnbalanced_wf, by decide, ?_⟩
  intro p hp hh s hl hs
  have key : ∀ p : List Nat, FanoutPath exUnbalanced p → (∃ x, p.head? = some x ∧ 2 ≤ x ∧ x < 7) →
      ∀ s, p.getLast? = some s → 2 ≤ s ∧ s < 7 := by
    intro p
    induction p with
    | nil => intro _ ⟨x, hx, _⟩; simp at hx
    | cons a l ih =>
      intro hp ⟨x, hx, h2⟩ s hl
      simp at hx; subst hx
      match l, ih, hp, hl with
      | [], _, _, hl => simp at hl; subst hl; exact h2
      | b :: l, ih, hp, hl =>
        unfold FanoutPath at hp
        rw [List.isChain_cons_cons] at hp
        refine ih hp.2 ⟨b, rfl, ?_, hp.1.1⟩ s (by rw [List.getLast?_cons_cons] at hl; exact hl)
        have := exUnbalanced_wf.fanins b hp.1.1 a hp.1.2
        omega
  obtain ⟨k1, k2⟩ := key p hp ⟨2, hh, by omega, by omega⟩ s hl
  have h6 : s = 6 := by
    interval_cases s <;> first | rfl | (exfalso; revert hs; decide)
  subst h6
  decide

end Verif.Networks
