import Verif.Paths.Heap
import Mathlib.Algebra.Order.Monoid.Defs
import Mathlib.Algebra.Order.Group.Nat

/-! Optimality of A* as long as the front of the open list is minimal. -/
namespace Verif.Paths

variable {V K : Type} [DecidableEq V] [LinearOrder K] [AddCommMonoid K] [IsOrderedCancelAddMonoid K]

/-- A path from `a` to `b` along successors (not necessarily simple). -/
def PathFromTo (succs : V → List V) (a b : V) (p : List V) : Prop :=
  p.IsChain (fun u w => w ∈ succs u) ∧ p.head? = some a ∧ p.getLast? = some b

/-- The heuristic never decreases by more than the cost of a step. -/
def Consistent (P : Problem V K) : Prop :=
  ∀ u, ∀ v ∈ P.succs u, P.dist u ≤ P.cost u v + P.dist v

/-- Additional invariant. -/
structure Opt (P : Problem V K) (st : St V K) : Prop where
  fval : ∀ e ∈ st.openList, e.2 = st.gVal e.1 + P.dist e.1
  closedOpt : ∀ u ∈ st.closed, ∀ p, PathFromTo P.succs P.source u p → st.gVal u ≤ pathCost P.cost p

/-- Edges leaving closed coordinates have been relaxed. -/
def Relaxed (P : Problem V K) (st : St V K) (S : V → V → Prop) : Prop :=
  ∀ u ∈ st.closed, ∀ v ∈ P.succs u, S u v → v ∉ st.closed →
    v ∈ st.keys ∧ st.gVal v ≤ st.gVal u + P.cost u v

omit [IsOrderedCancelAddMonoid K] in
theorem mem_setFirst {v : V} {f : K} {l : List (V × K)} {e : V × K} (h : e ∈ setFirst v f l)
    (hnd : (l.map Prod.fst).Nodup) : (e = (v, f) ∧ v ∈ l.map Prod.fst) ∨ (e ∈ l ∧ e.1 ≠ v) := by
  induction l with
  | nil => simp [setFirst] at h
  | cons a l ih =>
    simp only [setFirst] at h
    simp only [List.map_cons, List.nodup_cons] at hnd
    split at h
    · rename_i ha
      rcases List.mem_cons.1 h with rfl | h
      · left; simp [ha]
      · right
        refine ⟨List.mem_cons_of_mem _ h, fun he => hnd.1 ?_⟩
        rw [ha, ← he]; exact List.mem_map_of_mem h
    · rename_i ha
      rcases List.mem_cons.1 h with rfl | h
      · right; exact ⟨by simp, ha⟩
      · rcases ih h hnd.2 with h' | h'
        · left; exact ⟨h'.1, List.mem_cons_of_mem _ h'.2⟩
        · right; exact ⟨List.mem_cons_of_mem _ h'.1, h'.2⟩

omit [IsOrderedCancelAddMonoid K] in
theorem Opt.explore {q : Queue V K} (hq : q.Faithful) {P : Problem V K} {cur : V} {st : St V K}
    (hi : Inv P st) (h : Opt P st) {v : V} : Opt P (st.explore q P cur v) := by
  have hcl := explore_closed q P cur st v
  rcases explore_maps q P cur st v with ⟨he, _⟩ | ⟨hnc, -, hg, -, hop⟩
  · rw [he]; exact h
  · have hne : ∀ w ∈ st.closed, w ≠ v := fun w hw e => hnc (e ▸ hw)
    refine ⟨?_, ?_⟩
    · intro e he
      rw [hop] at he
      have : (e = (v, st.gVal cur + P.cost cur v + P.dist v)) ∨ (e ∈ st.openList ∧ e.1 ≠ v) := by
        split at he
        · have := (hq.update _ _ _).mem_iff.1 he
          rcases mem_setFirst this hi.nodup with h' | h'
          · exact Or.inl h'.1
          · exact Or.inr h'
        · rename_i hk
          have := (hq.push _ _).mem_iff.1 he
          rcases List.mem_cons.1 this with h' | h'
          · exact Or.inl h'
          · exact Or.inr ⟨h', fun e' => hk (e' ▸ List.mem_map_of_mem h')⟩
      rcases this with rfl | ⟨h1, h2⟩
      · rw [hg, if_pos rfl]
      · rw [hg, if_neg h2]; exact h.fval e h1
    · intro u hu p hp
      rw [hcl] at hu
      rw [hg, if_neg (hne u hu)]
      exact h.closedOpt u hu p hp

omit [IsOrderedCancelAddMonoid K] in
/-- Folding over the successors keeps the additional invariant and relaxes the edges of `cur`. -/
theorem fold_opt {q : Queue V K} (hq : q.Faithful) {P : Problem V K} {cur : V} (S : V → V → Prop) :
    ∀ (l : List V) (st : St V K), Inv P st → cur ∈ st.closed → (∀ v ∈ l, v ∈ P.succs cur) → Opt P st →
      Relaxed P st S →
      Opt P (l.foldl (St.explore q P cur) st) ∧
      Relaxed P (l.foldl (St.explore q P cur) st) (fun u v => S u v ∨ (u = cur ∧ v ∈ l))
  | [], st, _, _, _, ho, hr => ⟨ho, fun u hu v hv hS hnc => hr u hu v hv (by simpa using hS) hnc⟩
  | v :: l, st, h, hc, hl, ho, hr => by
    have h1 := h.explore hq hc (hl v (by simp))
    have hcl := explore_closed q P cur st v
    have hkeys := explore_keys hq P cur st v
    have hr' : Relaxed P (st.explore q P cur v) (fun u w => S u w ∨ (u = cur ∧ w = v)) := by
      intro u hu w hw hS hnc
      rw [hcl] at hu hnc
      rcases explore_maps q P cur st v with ⟨he, hk⟩ | ⟨hnv, -, hg, hlt, -⟩
      · rw [he]
        rcases hS with hS | ⟨rfl, rfl⟩
        · exact hr u hu w hw hS hnc
        · rcases hk with hk | hk
          · exact absurd hk hnc
          · exact hk
      · rw [hg, hg, if_neg (show u ≠ v from fun e => hnv (e ▸ hu)), hkeys.mem_iff]
        by_cases hwv : w = v
        · subst hwv
          rw [if_pos rfl]
          refine ⟨by split <;> simp_all, ?_⟩
          rcases hS with hS | ⟨rfl, _⟩
          · have := hr u hu w hw hS hnc
            exact le_trans (le_of_lt (hlt this.1)) this.2
          · exact le_refl _
        · rw [if_neg hwv]
          rcases hS with hS | ⟨_, h'⟩
          · have := hr u hu w hw hS hnc
            refine ⟨?_, this.2⟩
            split
            · exact this.1
            · exact List.mem_cons_of_mem _ this.1
          · exact absurd h' hwv
    obtain ⟨r1, r2⟩ := fold_opt hq (fun u w => S u w ∨ (u = cur ∧ w = v)) l (st.explore q P cur v) h1
      (by rw [hcl]; exact hc) (fun w hw => hl w (List.mem_cons_of_mem _ hw)) (ho.explore hq h) hr'
    rw [List.foldl_cons]
    refine ⟨r1, fun u hu w hw hS hnc => r2 u hu w hw ?_ hnc⟩
    rcases hS with hS | ⟨h', h''⟩
    · exact Or.inl (Or.inl hS)
    · rcases List.mem_cons.1 h'' with h'' | h''
      · exact Or.inl (Or.inr ⟨h', h''⟩)
      · exact Or.inr ⟨h', h''⟩

/-- Everything needed at the head of the loop. -/
structure Full (P : Problem V K) (st : St V K) : Prop where
  inv : Inv P st
  cov : Covered P st
  opt : Opt P st
  rel : Relaxed P st (fun _ _ => True)

theorem consistent_path {P : Problem V K} (hc : Consistent P) : ∀ (l : List V) (a b : V),
    PathFromTo P.succs a b l → P.dist a ≤ pathCost P.cost l + P.dist b := by
  intro l
  induction l with
  | nil => intro a b h; simp [PathFromTo] at h
  | cons c l ih =>
    intro a b h
    obtain ⟨h1, h2, h3⟩ := h
    simp at h2; subst h2
    cases l with
    | nil => simp at h3; subst h3; simp [pathCost]
    | cons d l =>
      rw [List.isChain_cons_cons] at h1
      have := ih d b ⟨h1.2, by simp, by simpa using h3⟩
      calc P.dist c ≤ P.cost c d + P.dist d := hc c d h1.1
        _ ≤ P.cost c d + (pathCost P.cost (d :: l) + P.dist b) := by gcongr
        _ = pathCost P.cost (c :: d :: l) + P.dist b := by rw [pathCost, add_assoc]

/-- A coordinate taken from the front of the open list has its final cost. -/
theorem head_optimal {P : Problem V K} (hc : Consistent P) {st : St V K} (h : Full P st)
    {cur : V} {f : K} {rest : List (V × K)} (ho : st.openList = (cur, f) :: rest)
    (hmin : ∀ e ∈ st.openList, f ≤ e.2) :
    ∀ (l : List V) (a : V), a ∈ st.closed → PathFromTo P.succs a cur l →
      st.gVal cur ≤ st.gVal a + pathCost P.cost l := by
  have hcurk : cur ∈ st.keys := by simp [St.keys, ho]
  have hcur := h.inv.disj cur hcurk
  have hf : f = st.gVal cur + P.dist cur := h.opt.fval (cur, f) (by rw [ho]; simp)
  intro l
  induction l with
  | nil => intro a _ hp; simp [PathFromTo] at hp
  | cons c l ih =>
    intro a ha hp
    obtain ⟨h1, h2, h3⟩ := hp
    simp at h2; subst h2
    cases l with
    | nil => simp at h3; subst h3; exact absurd ha hcur
    | cons b l =>
      rw [List.isChain_cons_cons] at h1
      have hp' : PathFromTo P.succs b cur (b :: l) := ⟨h1.2, by simp, by simpa using h3⟩
      have hb : st.gVal b ≤ st.gVal c + P.cost c b ∧ (b ∈ st.closed ∨ b ∈ st.keys) := by
        by_cases hbc : b ∈ st.closed
        · refine ⟨?_, Or.inl hbc⟩
          obtain ⟨path, hw, -, hcost, -⟩ := walk_exists P st h.inv.gsrc _ h.inv.ord c ha
          have := h.opt.closedOpt b hbc (path ++ [b]) ⟨?_, ?_, by simp⟩
          · rwa [pathCost_append _ _ _ _ hw.last, hcost] at this
          · rw [List.isChain_append]
            refine ⟨hw.chain, by simp, ?_⟩
            intro x hx y hy
            rw [hw.last] at hx
            simp at hx hy
            subst hx; subst hy
            exact h1.1
          · rw [List.head?_append, hw.head]; rfl
        · have := h.rel c ha b h1.1 trivial hbc
          exact ⟨this.2, Or.inr this.1⟩
      rw [pathCost]
      rcases hb with ⟨hb1, hb2 | hb2⟩
      · calc st.gVal cur ≤ st.gVal b + pathCost P.cost (b :: l) := ih b hb2 hp'
          _ ≤ st.gVal c + P.cost c b + pathCost P.cost (b :: l) := by gcongr
          _ = _ := by rw [add_assoc]
      · obtain ⟨e, he, heb⟩ := List.mem_map.1 hb2
        have h4 := hmin e he
        rw [hf, h.opt.fval e he, heb] at h4
        have h5 := consistent_path hc (b :: l) b cur hp'
        have h6 : st.gVal cur + P.dist cur ≤ (st.gVal c + (P.cost c b + pathCost P.cost (b :: l))) + P.dist cur := by
          calc st.gVal cur + P.dist cur ≤ st.gVal b + P.dist b := h4
            _ ≤ (st.gVal c + P.cost c b) + (pathCost P.cost (b :: l) + P.dist cur) := by gcongr
            _ = _ := by simp only [add_assoc]
        exact le_of_add_le_add_right h6

/-- One iteration keeps everything. -/
theorem Full.next {q : Queue V K} (hq : q.Faithful) {P : Problem V K} (hc : Consistent P) {st : St V K}
    (h : Full P st) {cur : V} {f : K} {rest : List (V × K)} (ho : st.openList = (cur, f) :: rest)
    (hmin : ∀ e ∈ st.openList, f ≤ e.2) : Full P (st.next q P cur) := by
  obtain ⟨n1, n2, n3⟩ := next_spec hq h.inv h.cov ho
  obtain ⟨c1, c2⟩ := h.inv.close hq ho
  have hk : st.keys = cur :: rest.map Prod.fst := by simp [St.keys, ho]
  have hopt : Opt P (st.close q cur) := by
    refine ⟨?_, ?_⟩
    · intro e he
      have he' : e ∈ q.pop st.openList := he
      rw [ho] at he'
      have := (hq.pop _ _).mem_iff.1 he'
      exact h.opt.fval e (by rw [ho]; exact List.mem_cons_of_mem _ this)
    · intro u hu p hp
      rcases List.mem_cons.1 hu with rfl | hu
      · have := head_optimal hc h ho hmin p P.source h.inv.src hp
        rw [h.inv.gsrc, zero_add] at this
        exact this
      · exact h.opt.closedOpt u hu p hp
  have hrel : Relaxed P (st.close q cur) (fun u _ => u ≠ cur) := by
    intro u hu v hv hne hnc
    have hnc' : v ≠ cur ∧ v ∉ st.closed := by simpa [St.close] using hnc
    have hu' : u ∈ st.closed := (List.mem_cons.1 hu).resolve_left hne
    have := h.rel u hu' v hv trivial hnc'.2
    refine ⟨c2.mem_iff.2 ?_, this.2⟩
    have h' := this.1
    rw [hk] at h'
    exact (List.mem_cons.1 h').resolve_left hnc'.1
  obtain ⟨r1, r2⟩ := fold_opt hq _ (P.succs cur) (st.close q cur) c1 (by simp [St.close])
    (fun v hv => hv) hopt hrel
  refine ⟨n1, n2, r1, ?_⟩
  intro u hu v hv _ hnc
  refine r2 u hu v hv ?_ hnc
  by_cases hne : u = cur
  · exact Or.inr ⟨hne, hne ▸ hv⟩
  · exact Or.inl hne

/-- The first iteration establishes everything. -/
theorem Full.first {q : Queue V K} (hq : q.Faithful) {P : Problem V K}
    (hpos : ∀ p, PathFromTo P.succs P.source P.source p → 0 ≤ pathCost P.cost p) :
    Full P ((St.init q P).next q P P.source) := by
  obtain ⟨f1, f2, f3, f4, f5⟩ := first_spec hq P
  have hi : Inv P ((St.init q P).close q P.source) := by
    refine ⟨?_, by simp [St.close], rfl, ?_, ?_, ?_⟩
    · exact ⟨trivial, by simp [St.init], Or.inl ⟨rfl, rfl⟩⟩
    · simp [St.keys, f5]
    · simp [St.keys, f5]
    · simp [St.keys, f5]
  have hopt : Opt P ((St.init q P).close q P.source) := by
    refine ⟨by simp [f5], ?_⟩
    intro u hu p hp
    have : u = P.source := by simpa [St.close, St.init] using hu
    subst this
    exact hpos p hp
  have hrel : Relaxed P ((St.init q P).close q P.source) (fun u _ => u ≠ P.source) := by
    intro u hu v hv hne
    have : u = P.source := by simpa [St.close, St.init] using hu
    exact absurd this hne
  obtain ⟨r1, r2⟩ := fold_opt hq _ (P.succs P.source) _ hi (by simp [St.close]) (fun v hv => hv) hopt hrel
  refine ⟨f1, f2, r1, ?_⟩
  intro u hu v hv _ hnc
  refine r2 u hu v hv ?_ hnc
  by_cases hne : u = P.source
  · exact Or.inr ⟨hne, hne ▸ hv⟩
  · exact Or.inl hne

end Verif.Paths
