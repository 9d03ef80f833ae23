import Verif.Networks.FanoutTree
import Mathlib.Algebra.BigOperators.Group.Finset.Piecewise

/-! The buffers provided by fanout substitution suffice. -/
namespace Verif.Networks

/-- Nodes of the source that have been translated. -/
def Tr (S : Ntk) (done : List Nat) (n : Nat) : Prop := n < S.size ∧ ((S.node n).isGate = false ∨ n ∈ done)

/-- Nodes of the result that may stand for the source node `n`. -/
def own (st : FanoutState) (n : Nat) : Finset Nat := insert (st.old2new n) (st.avail n).toFinset

/-- Unused capacity of the buffers provided for the source node `n`. -/
def cap (ps : FanoutParams) (st : FanoutState) (n : Nat) : Nat :=
  (ps.threshold - st.ntk.fanoutSize (st.old2new n)) +
    ∑ b ∈ (st.avail n).toFinset, (ps.degree - st.ntk.fanoutSize b)

/-- Invariant: `rem n` uses of the source node `n` are still to come, no tree has been generated yet for the
nodes of `pend`. -/
structure CapInv (ps : FanoutParams) (S : Ntk) (st : FanoutState) (done : List Nat) (rem : Nat → Nat)
    (pend : List Nat) : Prop where
  closed : st.ntk.Closed
  lt : ∀ n, Tr S done n → ∀ x ∈ own st n, x < st.ntk.size
  disj : ∀ n m x, Tr S done n → Tr S done m → x ∈ own st n → x ∈ own st m → n = m
  rootNot : ∀ n, Tr S done n → st.old2new n ∉ st.avail n
  empty : ∀ n, ¬ Tr S done n → st.avail n = []
  consts : ∀ n, (S.node n).isConst = true → st.avail n = []
  full : ∀ n, Tr S done n → st.avail n = [] → st.ntk.fanoutSize (st.old2new n) + rem n ≤ S.fanoutSize n
  small : ∀ n, Tr S done n → n ∉ pend → st.avail n = [] → (S.node n).isConst = false →
    S.fanoutSize n ≤ ps.threshold ∨ (S.isFanout n = true ∧ S.fanoutSize n ≤ ps.degree)
  cap : ∀ n, Tr S done n → st.avail n ≠ [] → rem n ≤ cap ps st n
  pend : ∀ n ∈ pend, st.avail n = [] ∧ st.ntk.fanoutSize (st.old2new n) = 0

theorem sum_sub_le (s : Finset Nat) (d : Nat) (f g : Nat → Nat) :
    ∑ b ∈ s, (d - f b) ≤ ∑ b ∈ s, (d - (f b + g b)) + ∑ b ∈ s, g b := by
  rw [← Finset.sum_add_distrib]
  apply Finset.sum_le_sum
  intro i _; omega

/-- The uses of the nodes standing for `n` are uses of `n`. -/
theorem uses_le {S : Ntk} {st : FanoutState} {done : List Nat}
    (disj : ∀ n m x, Tr S done n → Tr S done m → x ∈ own st n → x ∈ own st m → n = m)
    {fs cs : List Nat} (h : List.Forall₂ (fun f c => c ∈ own st f) fs cs) (hfs : ∀ f ∈ fs, Tr S done f) (n : Nat)
    (hn : Tr S done n) : ∑ x ∈ own st n, cs.count x ≤ fs.count n := by
  induction h with
  | nil => simp
  | @cons f c fs cs hc _ ih =>
    have ih := ih (fun f hf => hfs f (List.mem_cons_of_mem _ hf))
    have hf := hfs f (List.mem_cons_self ..)
    have e : ∀ x, (c :: cs).count x = cs.count x + if x = c then 1 else 0 := by
      intro x
      rw [List.count_cons]
      by_cases h : x = c
      · subst h; simp
      · rw [if_neg h, if_neg (by simpa using fun e => h e.symm)]
    rw [Finset.sum_congr rfl (fun x _ => e x), Finset.sum_add_distrib, Finset.sum_ite_eq']
    by_cases hfn : f = n
    · subst hfn
      rw [List.count_cons_self]
      split <;> omega
    · rw [List.count_cons_of_ne hfn, if_neg]
      · omega
      · intro hm
        exact hfn (disj f n c hf hn hc hm)

theorem CapInv.use {ps : FanoutParams} {S : Ntk} {st : FanoutState} {done : List Nat} {rem rem' : Nat → Nat}
    {pend : List Nat} (h : CapInv ps S st done rem pend) {fs cs : List Nat}
    (hu : List.Forall₂ (fun f c => c ∈ own st f) fs cs) (hfs : ∀ f ∈ fs, Tr S done f) (N' : Ntk) (hc : N'.Closed)
    (hsz : st.ntk.size ≤ N'.size) (hfo : ∀ i, N'.fanoutSize i = st.ntk.fanoutSize i + cs.count i)
    (hrem : ∀ n, rem' n + fs.count n ≤ rem n) (hp : ∀ n ∈ pend, Tr S done n ∧ n ∉ fs) :
    CapInv ps S ⟨N', st.old2new, st.avail⟩ done rem' pend := by
  have hul := fun n hn => uses_le h.disj hu hfs n hn
  have hroot : ∀ n, Tr S done n → cs.count (st.old2new n) ≤ fs.count n := by
    intro n hn
    refine le_trans ?_ (hul n hn)
    unfold own
    exact Finset.single_le_sum (f := fun x => cs.count x) (fun _ _ => Nat.zero_le _) (Finset.mem_insert_self _ _)
  refine ⟨hc, fun n hn x hx => lt_of_lt_of_le (h.lt n hn x hx) hsz, h.disj, h.rootNot, h.empty, h.consts, ?_, h.small,
    ?_, ?_⟩
  · intro n hn ha
    dsimp only
    rw [hfo]
    have h1 := h.full n hn ha
    have h2 := hroot n hn
    have h3 := hrem n
    omega
  · intro n hn ha
    have h1 := h.cap n hn ha
    have h2 := hul n hn
    have h3 := hrem n
    unfold own at h2
    rw [Finset.sum_insert (by simpa using h.rootNot n hn)] at h2
    unfold Networks.cap at h1 ⊢
    dsimp only
    simp only [hfo]
    have h4 := sum_sub_le (st.avail n).toFinset ps.degree (fun b => st.ntk.fanoutSize b) (fun b => cs.count b)
    omega
  · intro n hn
    have h1 := h.pend n hn
    refine ⟨h1.1, ?_⟩
    dsimp only
    rw [hfo, h1.2]
    have h2 := hroot n (hp n hn).1
    rw [List.count_eq_zero_of_not_mem (hp n hn).2] at h2
    omega

theorem CapInv.newGate {ps : FanoutParams} {S : Ntk} {st : FanoutState} {done : List Nat} {rem : Nat → Nat}
    (h : CapInv ps S st done rem []) {n i : Nat} (hn : n < S.size) (hg : (S.node n).isGate = true) (hnd : n ∉ done)
    (hi : i < st.ntk.size) (hfresh : ∀ m, Tr S done m → i ∉ own st m) (h0 : st.ntk.fanoutSize i = 0)
    (hrem : rem n ≤ S.fanoutSize n) :
    CapInv ps S ⟨st.ntk, fun m => if m = n then i else st.old2new m, st.avail⟩ (done ++ [n]) rem [n] := by
  have htr : ∀ m, Tr S (done ++ [n]) m ↔ Tr S done m ∨ m = n := by
    intro m; unfold Tr; simp only [List.mem_append, List.mem_singleton]
    constructor
    · rintro ⟨a, b | b | b⟩
      · exact Or.inl ⟨a, Or.inl b⟩
      · exact Or.inl ⟨a, Or.inr b⟩
      · exact Or.inr b
    · rintro (⟨a, b | b⟩ | b)
      · exact ⟨a, Or.inl b⟩
      · exact ⟨a, Or.inr (Or.inl b)⟩
      · subst b; exact ⟨hn, Or.inr (Or.inr rfl)⟩
  have hntr : ¬ Tr S done n := by
    rintro ⟨_, b | b⟩
    · rw [hg] at b; cases b
    · exact hnd b
  have hav : st.avail n = [] := h.empty n hntr
  have hown : ∀ m, own ⟨st.ntk, fun m => if m = n then i else st.old2new m, st.avail⟩ m
      = if m = n then {i} else own st m := by
    intro m
    unfold own
    dsimp only
    split
    · rename_i e; subst e; rw [hav]; rfl
    · rfl
  have hne : ∀ m, Tr S done m → m ≠ n := by intro m hm e; subst e; exact hntr hm
  refine ⟨h.closed, ?_, ?_, ?_, ?_, h.consts, ?_, ?_, ?_, ?_⟩
  · intro m hm x hx
    rw [hown] at hx
    split at hx
    · simp at hx; subst hx; exact hi
    · rename_i e; exact h.lt m (((htr m).1 hm).resolve_right e) x hx
  · intro a b x ha hb hxa hxb
    rw [hown] at hxa hxb
    split at hxa <;> split at hxb
    · rename_i e1 e2; rw [e1, e2]
    · rename_i e1 e2; simp at hxa; subst hxa; exact absurd hxb (hfresh b (((htr b).1 hb).resolve_right e2))
    · rename_i e1 e2; simp at hxb; subst hxb; exact absurd hxa (hfresh a (((htr a).1 ha).resolve_right e1))
    · rename_i e1 e2
      exact h.disj a b x (((htr a).1 ha).resolve_right e1) (((htr b).1 hb).resolve_right e2) hxa hxb
  · intro m hm
    dsimp only
    split
    · rename_i e; subst e; rw [hav]; simp
    · rename_i e; exact h.rootNot m (((htr m).1 hm).resolve_right e)
  · intro m hm
    exact h.empty m (fun hx => hm ((htr m).2 (Or.inl hx)))
  · intro m hm ha
    dsimp only
    split
    · rename_i e; subst e; rw [h0]; omega
    · rename_i e; exact h.full m (((htr m).1 hm).resolve_right e) ha
  · intro m hm hp ha hcn
    have e : m ≠ n := by simpa using hp
    exact h.small m (((htr m).1 hm).resolve_right e) (by simp) ha hcn
  · intro m hm ha
    have e : m ≠ n := by intro e; subst e; exact ha hav
    have := h.cap m (((htr m).1 hm).resolve_right e) ha
    unfold Networks.cap at this ⊢
    dsimp only
    rw [if_neg e]
    exact this
  · intro m hm
    simp at hm
    subst hm
    exact ⟨hav, by dsimp only; rw [if_pos rfl]; exact h0⟩

theorem generateTree_cases (ps : FanoutParams) (hd : 1 ≤ ps.degree) (S : Ntk) (n : Nat) (st : FanoutState)
    (hc : st.ntk.Closed) (hr : st.old2new n < st.ntk.size) :
    (generateTree ps S n st = some st ∧
      (S.fanoutSize n ≤ ps.threshold ∨ (S.isFanout n = true ∧ S.fanoutSize n ≤ ps.degree))) ∨
    ∃ k N' q, numFanouts ps (S.fanoutSize n) = k + 1 ∧ TreeSpec ps.degree (k + 1) st.ntk (st.old2new n) N' q ∧
      generateTree ps S n st = some ⟨N', st.old2new, fun m => if m = n then q else st.avail m⟩ := by
  unfold generateTree
  split
  · rename_i h
    simp only [Bool.and_eq_true, decide_eq_true_eq] at h
    exact Or.inl ⟨rfl, Or.inr h⟩
  · dsimp only
    split
    · rename_i h
      refine Or.inl ⟨rfl, Or.inl ?_⟩
      unfold numFanouts at h
      have hm : 1 ≤ max (ps.degree - 1) 1 := le_max_right _ _
      generalize max (ps.degree - 1) 1 = m at h hm
      rcases Nat.div_eq_zero_iff.1 h with h | h <;> omega
    · rename_i h
      obtain ⟨k, hk⟩ := Nat.exists_eq_succ_of_ne_zero h
      right
      refine ⟨k, ?_⟩
      rw [hk]
      cases ps.strategy with
      | depth =>
        refine ⟨_, _, rfl, depth_spec _ hd k _ _ hc hr, ?_⟩
        simp
      | breadth =>
        obtain ⟨⟨N', q⟩, hrr⟩ := breadth_total ps.degree hd (k + 1) st.ntk [st.old2new n] (by simp)
        refine ⟨N', q, rfl, (breadth_grow _ _ _ _ _ _ hrr).spec hc hr hd, ?_⟩
        simp [hrr]
      | random rnd =>
        obtain ⟨⟨N', q⟩, hrr⟩ := random_total ps.degree hd (rnd n) (k + 1) st.ntk [st.old2new n] (by simp)
        refine ⟨N', q, rfl, (random_grow _ _ _ _ _ _ _ hrr).spec hc hr hd, ?_⟩
        simp [hrr]

theorem numFanouts_suffice (ps : FanoutParams) (hd : 2 ≤ ps.degree) (F : Nat) :
    F ≤ ps.threshold + numFanouts ps F * (ps.degree - 1) := by
  unfold numFanouts
  rw [max_eq_left (by omega)]
  generalize hm : ps.degree - 1 = m
  have h1 : 1 ≤ m := by omega
  have := Nat.div_add_mod (F - ps.threshold + m - 1) m
  have h2 := Nat.mod_lt (F - ps.threshold + m - 1) (show m > 0 by omega)
  rw [Nat.mul_comm] at this
  omega

theorem CapInv.tree {ps : FanoutParams} (hd : 2 ≤ ps.degree) {S : Ntk} {st : FanoutState}
    {done : List Nat} {rem : Nat → Nat} {n : Nat} {pend : List Nat} (h : CapInv ps S st done rem (n :: pend))
    (hn : Tr S done n) (hnp : n ∉ pend) (hpt : ∀ m ∈ pend, Tr S done m) (hnc : (S.node n).isConst = false)
    (hrem : rem n ≤ S.fanoutSize n) :
    ∃ st', generateTree ps S n st = some st' ∧ CapInv ps S st' done rem pend ∧
      st'.old2new = st.old2new ∧ (st' = st ∨ ∃ k q, numFanouts ps (S.fanoutSize n) = k + 1 ∧
        TreeSpec ps.degree (k + 1) st.ntk (st.old2new n) st'.ntk q ∧
        st'.avail = fun m => if m = n then q else st.avail m) := by
  have hr : st.old2new n < st.ntk.size := h.lt n hn _ (by simp [own])
  rcases generateTree_cases ps (by omega) S n st h.closed hr with ⟨h1, h2⟩ | ⟨k, N', q, h1, h2, h3⟩
  · refine ⟨st, h1, ⟨h.closed, h.lt, h.disj, h.rootNot, h.empty, h.consts, h.full, ?_, h.cap, ?_⟩, rfl, Or.inl rfl⟩
    · intro m hm hp ha hc
      by_cases e : m = n
      · subst e; exact h2
      · exact h.small m hm (by simp [e, hp]) ha hc
    · intro m hm; exact h.pend m (List.mem_cons_of_mem _ hm)
  · refine ⟨_, h3, ?_, rfl, Or.inr ⟨k, q, h1, h2, rfl⟩⟩
    have hp := h.pend n (List.mem_cons_self ..)
    have hqne : q ≠ [] := by
      intro e
      have := h2.cap
      rw [e] at this
      simp at this
    have hsz := h2.ext.size
    have hown : ∀ m x, x ∈ own ⟨N', st.old2new, fun m => if m = n then q else st.avail m⟩ m →
        x ∈ own st m ∨ (m = n ∧ x ∈ q) := by
      intro m x hx
      unfold own at hx ⊢
      dsimp only at hx
      split at hx
      · rename_i e
        simp only [Finset.mem_insert, List.mem_toFinset] at hx ⊢
        rcases hx with hx | hx
        · exact Or.inl (Or.inl hx)
        · exact Or.inr ⟨e, hx⟩
      · exact Or.inl hx
    have hfo : ∀ m, Tr S done m → m ≠ n → ∀ x ∈ own st m, N'.fanoutSize x = st.ntk.fanoutSize x := by
      intro m hm hmn x hx
      rw [h2.old x (h.lt m hm x hx), if_neg]
      · rfl
      · intro e
        subst e
        exact hmn (h.disj m n _ hm hn hx (by simp [own]))
    refine ⟨h2.closed, ?_, ?_, ?_, ?_, ?_, ?_, ?_, ?_, ?_⟩
    · intro m hm x hx
      rcases hown m x hx with hx | ⟨_, hx⟩
      · exact lt_of_lt_of_le (h.lt m hm x hx) hsz
      · exact (h2.mem x hx).2
    · intro a b x ha hb hxa hxb
      rcases hown a x hxa with h4 | ⟨h4, h5⟩ <;> rcases hown b x hxb with h6 | ⟨h6, h7⟩
      · exact h.disj a b x ha hb h4 h6
      · have := h.lt a ha x h4; have := (h2.mem x h7).1; omega
      · have := h.lt b hb x h6; have := (h2.mem x h5).1; omega
      · rw [h4, h6]
    · intro m hm
      dsimp only
      split
      · rename_i e; subst e; intro hx; have := (h2.mem _ hx).1; omega
      · exact h.rootNot m hm
    · intro m hm
      dsimp only
      rw [if_neg (by intro e; subst e; exact hm hn)]
      exact h.empty m hm
    · intro m hm
      dsimp only
      rw [if_neg (by intro e; subst e; rw [hnc] at hm; cases hm)]
      exact h.consts m hm
    · intro m hm ha
      dsimp only at ha ⊢
      have e : m ≠ n := by intro e; subst e; rw [if_pos rfl] at ha; exact hqne ha
      rw [if_neg e] at ha
      rw [hfo m hm e _ (by simp [own])]
      exact h.full m hm ha
    · intro m hm hmp ha hc
      dsimp only at ha
      have e : m ≠ n := by intro e; subst e; rw [if_pos rfl] at ha; exact hqne ha
      rw [if_neg e] at ha
      exact h.small m hm (by simp [e, hmp]) ha hc
    · intro m hm ha
      dsimp only at ha
      unfold Networks.cap
      dsimp only
      by_cases e : m = n
      · subst e
        rw [if_pos rfl, h2.old _ hr, hp.2, if_pos rfl]
        have h4 := h2.cap
        have h5 := numFanouts_suffice ps hd (S.fanoutSize m)
        rw [h1] at h5
        omega
      · rw [if_neg e] at ha ⊢
        have := h.cap m hm ha
        unfold Networks.cap at this
        rw [hfo m hm e _ (by simp [own])]
        refine le_trans this (Nat.add_le_add_left (le_of_eq ?_) _)
        apply Finset.sum_congr rfl
        intro b hb
        rw [hfo m hm e b (by unfold own; exact Finset.mem_insert_of_mem hb)]
    · intro m hm
      have e : m ≠ n := by intro e; subst e; exact hnp hm
      dsimp only
      rw [if_neg e, hfo m (hpt m hm) e _ (by simp [own])]
      exact h.pend m (List.mem_cons_of_mem _ hm)

theorem getFanout_own {ps : FanoutParams} {st : FanoutState} {n c : Nat} (h : getFanout ps st n = some c) :
    c ∈ own st n := by
  rcases getFanout_mem h with e | e
  · subst e; simp [own]
  · unfold own; exact Finset.mem_insert_of_mem (List.mem_toFinset.2 e)

theorem substChild_own {ps : FanoutParams} {S : Ntk} {st : FanoutState} {n c : Nat} (h : substChild ps S st n = some c) :
    c ∈ own st n := by
  unfold substChild at h
  split at h
  · cases h; simp [own]
  · exact getFanout_own h

theorem getFanout_total {ps : FanoutParams} {S : Ntk} {st : FanoutState} {done : List Nat} {rem : Nat → Nat}
    {pend : List Nat} (h : CapInv ps S st done rem pend) {n : Nat} (hn : Tr S done n) (hr : 1 ≤ rem n) :
    ∃ c, getFanout ps st n = some c := by
  unfold getFanout
  dsimp only
  split
  · rename_i hge
    split
    · exact ⟨_, rfl⟩
    · rename_i ha
      have hcap := h.cap n hn ha
      unfold cap at hcap
      have hpos : 0 < ∑ b ∈ (st.avail n).toFinset, (ps.degree - st.ntk.fanoutSize b) := by omega
      have : ∃ b ∈ (st.avail n).toFinset, 0 < ps.degree - st.ntk.fanoutSize b := by
        by_contra hcon
        push Not at hcon
        rw [Finset.sum_eq_zero (fun b hb => by have := hcon b hb; omega)] at hpos
        omega
      obtain ⟨b, hb, hb2⟩ := this
      have : (st.avail n).find? (fun c => decide (st.ntk.fanoutSize c < ps.degree)) ≠ none := by
        rw [Ne, List.find?_eq_none]
        push Not
        exact ⟨b, List.mem_toFinset.1 hb, by simpa using by omega⟩
      exact Option.ne_none_iff_exists'.1 this
  · exact ⟨_, rfl⟩

end Verif.Networks
