import Verif.Paths.Model
import Mathlib.Logic.Relation
import Mathlib.Data.List.Chain
import Mathlib.Algebra.Order.Monoid.Defs
import Mathlib.Algebra.Order.Monoid.Unbundled.Basic
import Mathlib.Data.List.Perm.Subperm
import Mathlib.Tactic.Tauto

/-! Helper lemmas for the A* model: invariants of the open list, closed list and predecessor map. -/
namespace Verif.Paths

variable {V K : Type} [DecidableEq V] [LinearOrder K] [AddCommMonoid K]

/-- What the proofs need of any priority queue, heap or not: no entry is lost or invented. -/
structure Queue.Faithful (q : Queue V K) : Prop where
  push : ∀ l e, (q.push l e).Perm (e :: l)
  pop : ∀ e l, (q.pop (e :: l)).Perm l
  update : ∀ l v f, (q.update l v f).Perm (setFirst v f l)

/-- Total cost of a sequence of coordinates. -/
def pathCost (cost : V → V → K) : List V → K
  | [] => 0
  | [_] => 0
  | u :: v :: l => cost u v + pathCost cost (v :: l)

omit [DecidableEq V] [LinearOrder K] in
theorem pathCost_append (cost : V → V → K) (l : List V) (p v : V) (h : l.getLast? = some p) :
    pathCost cost (l ++ [v]) = pathCost cost l + cost p v := by
  induction l with
  | nil => simp at h
  | cons a l ih =>
    cases l with
    | nil => simp at h; subst h; simp [pathCost]
    | cons b l =>
      simp only [List.cons_append, pathCost]
      have : (b :: l).getLast? = some p := by simpa using h
      rw [← List.cons_append, ih this, add_assoc]

/-- The closed list (newest first) is closed in predecessor order. -/
def Ord (P : Problem V K) (st : St V K) : List V → Prop
  | [] => True
  | v :: l => Ord P st l ∧ v ∉ l ∧ ((v = P.source ∧ l = []) ∨
      (v ≠ P.source ∧ ∃ p ∈ l, st.cameFrom v = some p ∧ v ∈ P.succs p ∧
        st.gVal v = st.gVal p + P.cost p v))

omit [DecidableEq V] in
theorem Ord.congr {P : Problem V K} {st st' : St V K} : ∀ {l : List V},
    (∀ v ∈ l, st'.cameFrom v = st.cameFrom v ∧ st'.gVal v = st.gVal v) → Ord P st l → Ord P st' l
  | [], _, _ => trivial
  | v :: l, h, ho => by
    obtain ⟨h1, h2, h3⟩ := ho
    refine ⟨Ord.congr (fun w hw => h w (List.mem_cons_of_mem _ hw)) h1, h2, ?_⟩
    rcases h3 with h3 | ⟨h3, p, hp, h4, h5, h6⟩
    · exact Or.inl h3
    · refine Or.inr ⟨h3, p, hp, ?_, h5, ?_⟩
      · rw [(h v (by simp)).1, h4]
      · rw [(h v (by simp)).2, (h p (List.mem_cons_of_mem _ hp)).2, h6]

/-- A path found through the predecessor map. -/
structure Walk (P : Problem V K) (v : V) (path : List V) : Prop where
  chain : path.IsChain (fun u w => w ∈ P.succs u)
  head : path.head? = some P.source
  last : path.getLast? = some v
  nodup : path.Nodup

omit [DecidableEq V] in
theorem Ord.nodup {P : Problem V K} {st : St V K} : ∀ {l : List V}, Ord P st l → l.Nodup
  | [], _ => by simp
  | v :: l, h => List.nodup_cons.2 ⟨h.2.1, Ord.nodup h.1⟩

theorem walk_exists (P : Problem V K) (st : St V K) (hs : st.gVal P.source = 0) : ∀ C : List V,
    Ord P st C → ∀ v ∈ C, ∃ path, Walk P v path ∧ path ⊆ C ∧ pathCost P.cost path = st.gVal v ∧
      ∀ fuel acc, walkBack st.cameFrom P.source fuel v acc =
        if path.length ≤ fuel then some (path ++ acc) else none := by
  intro C
  induction C with
  | nil => intro _ v hv; simp at hv
  | cons c C ih =>
    intro ho v hv
    obtain ⟨h1, h2, h3⟩ := ho
    by_cases hvc : v = c
    · subst hvc
      rcases h3 with ⟨h3, rfl⟩ | ⟨h3, p, hp, h4, h5, h6⟩
      · refine ⟨[v], ⟨by simp, by simp [h3], by simp, by simp⟩, by simp, ?_, ?_⟩
        · simp [pathCost, h3, hs]
        · intro fuel acc
          cases fuel with
          | zero => simp [walkBack]
          | succ n => simp [walkBack, h3]
      · obtain ⟨path, hw, hsub, hc, hb⟩ := ih h1 p hp
        refine ⟨path ++ [v], ⟨?_, ?_, by simp, ?_⟩, ?_, ?_, ?_⟩
        · rw [List.isChain_append]
          refine ⟨hw.chain, by simp, ?_⟩
          intro x hx y hy
          rw [hw.last] at hx
          simp at hx hy
          subst hx; subst hy
          exact h5
        · rw [List.head?_append, hw.head]; rfl
        · rw [List.nodup_append]
          refine ⟨hw.nodup, by simp, ?_⟩
          intro a ha b hb' hab
          simp at hb'
          subst hb'; subst hab
          exact h2 (hsub ha)
        · intro a ha
          rw [List.mem_append] at ha
          rcases ha with ha | ha
          · exact List.mem_cons_of_mem _ (hsub ha)
          · simp at ha; simp [ha]
        · rw [pathCost_append _ _ _ _ hw.last, hc, h6]
        · intro fuel acc
          cases fuel with
          | zero => simp [walkBack]
          | succ n =>
            rw [walkBack, if_neg h3, h4]
            simp only [hb, List.length_append, List.length_singleton, Nat.add_le_add_iff_right,
              List.append_assoc, List.singleton_append]
    · have hv' : v ∈ C := by simpa [hvc] using hv
      obtain ⟨path, hw, hsub, hr⟩ := ih h1 v hv'
      exact ⟨path, hw, fun a ha => List.mem_cons_of_mem _ (hsub ha), hr⟩

/-- Coordinates in the open list. -/
def St.keys (st : St V K) : List V := st.openList.map Prod.fst

/-- The invariant while the coordinates in `C` are closed. -/
structure Inv (P : Problem V K) (st : St V K) : Prop where
  ord : Ord P st st.closed
  src : P.source ∈ st.closed
  gsrc : st.gVal P.source = 0
  nodup : st.keys.Nodup
  disj : ∀ v ∈ st.keys, v ∉ st.closed
  openp : ∀ v ∈ st.keys, ∃ p ∈ st.closed, st.cameFrom v = some p ∧ v ∈ P.succs p ∧
    st.gVal v = st.gVal p + P.cost p v

omit [LinearOrder K] [AddCommMonoid K] in
theorem setFirst_keys (v : V) (f : K) (l : List (V × K)) : (setFirst v f l).map Prod.fst = l.map Prod.fst := by
  induction l with
  | nil => rfl
  | cons e l ih =>
    simp only [setFirst]
    split
    · rename_i h; simp [h]
    · simp [ih]

omit [AddCommMonoid K] [LinearOrder K] [DecidableEq V] in
theorem any_keys [DecidableEq V] (l : List (V × K)) (v : V) :
    (l.any (fun e => e.1 == v)) = true ↔ v ∈ l.map Prod.fst := by
  simp [List.any_eq_true]

/-- The keys after exploring `v`. -/
theorem explore_keys {q : Queue V K} (hq : q.Faithful) (P : Problem V K) (cur : V) (st : St V K) (v : V) :
    (st.explore q P cur v).keys.Perm
      (if v ∈ st.closed ∨ v ∈ st.keys then st.keys else v :: st.keys) := by
  unfold St.explore
  by_cases h1 : v ∈ st.closed
  · simp [h1]
  · simp only [h1, if_false, false_or]
    by_cases h2 : v ∈ st.keys
    · have h2' := (any_keys st.openList v).2 h2
      simp only [h2', h2, Bool.true_and, if_true]
      split
      · exact List.Perm.refl _
      · have := (hq.update st.openList v (st.gVal cur + P.cost cur v + P.dist v)).map Prod.fst
        rw [setFirst_keys] at this
        exact this
    · have h2' : (st.openList.any (fun e => e.1 == v)) = false := by
        rw [Bool.eq_false_iff]; exact fun h => h2 ((any_keys _ _).1 h)
      simp only [h2', h2, Bool.false_and, Bool.false_eq_true, if_false]
      exact (hq.push st.openList _).map Prod.fst

theorem explore_closed (q : Queue V K) (P : Problem V K) (cur : V) (st : St V K) (v : V) :
    (st.explore q P cur v).closed = st.closed := by
  unfold St.explore; split
  · rfl
  · dsimp only; split <;> rfl

/-- What exploring `v` does to the maps. -/
theorem explore_maps (q : Queue V K) (P : Problem V K) (cur : V) (st : St V K) (v : V) :
    ((st.explore q P cur v) = st ∧ (v ∈ st.closed ∨ (v ∈ st.keys ∧ st.gVal v ≤ st.gVal cur + P.cost cur v))) ∨
    (v ∉ st.closed ∧
      (∀ w, (st.explore q P cur v).cameFrom w = if w = v then some cur else st.cameFrom w) ∧
      (∀ w, (st.explore q P cur v).gVal w = if w = v then st.gVal cur + P.cost cur v else st.gVal w) ∧
      (v ∈ st.keys → st.gVal cur + P.cost cur v < st.gVal v) ∧
      (st.explore q P cur v).openList =
        if v ∈ st.keys then q.update st.openList v (st.gVal cur + P.cost cur v + P.dist v)
        else q.push st.openList (v, st.gVal cur + P.cost cur v + P.dist v)) := by
  unfold St.explore
  by_cases h1 : v ∈ st.closed
  · simp [h1]
  · simp only [h1, if_false, false_or]
    by_cases h2 : v ∈ st.keys
    · have h2' := (any_keys st.openList v).2 h2
      simp only [h2', h2, Bool.true_and, if_true]
      by_cases h3 : st.gVal v ≤ st.gVal cur + P.cost cur v
      · left; simp [h3]
      · right
        simp only [h3, decide_false, Bool.false_eq_true, if_false]
        refine ⟨not_false, fun _ => trivial, ?_, fun _ => not_le.1 h3, trivial⟩
        intro w; simp only [St.gVal]; split <;> rfl
    · have h2' : (st.openList.any (fun e => e.1 == v)) = false := by
        rw [Bool.eq_false_iff]; exact fun h => h2 ((any_keys _ _).1 h)
      simp only [h2', h2, Bool.false_and, Bool.false_eq_true, if_false]
      right
      refine ⟨not_false, fun _ => trivial, ?_, fun h => absurd h (by simp), trivial⟩
      intro w; simp only [St.gVal]; split <;> rfl

theorem Inv.explore {q : Queue V K} (hq : q.Faithful) {P : Problem V K} {cur : V} {st : St V K}
    (h : Inv P st) (hc : cur ∈ st.closed) {v : V} (hv : v ∈ P.succs cur) : Inv P (st.explore q P cur v) := by
  have hcl := explore_closed q P cur st v
  have hk := explore_keys hq P cur st v
  rcases explore_maps q P cur st v with ⟨he, _⟩ | ⟨hnc, hcf, hg, -, -⟩
  · rw [he]; exact h
  · have hne : ∀ w ∈ st.closed, w ≠ v := fun w hw e => hnc (e ▸ hw)
    refine ⟨?_, by rw [hcl]; exact h.src, ?_, ?_, ?_, ?_⟩
    · rw [hcl]
      refine h.ord.congr (fun w hw => ?_)
      rw [hcf, hg, if_neg (hne w hw), if_neg (hne w hw)]
      exact ⟨rfl, rfl⟩
    · rw [hg, if_neg (hne _ h.src)]; exact h.gsrc
    · rw [hk.nodup_iff]
      split
      · exact h.nodup
      · rename_i h'; exact List.nodup_cons.2 ⟨fun h'' => h' (Or.inr h''), h.nodup⟩
    · intro w hw
      rw [hcl]
      have hw' := hk.mem_iff.1 hw
      split at hw'
      · exact h.disj w hw'
      · rcases List.mem_cons.1 hw' with rfl | hw'
        · exact hnc
        · exact h.disj w hw'
    · intro w hw
      rw [hcl]
      by_cases hwv : w = v
      · subst hwv
        refine ⟨cur, hc, by simp [hcf], hv, ?_⟩
        rw [hg, hg, if_pos rfl, if_neg (hne cur hc)]
      · have hw' : w ∈ st.keys := by
          have hw' := hk.mem_iff.1 hw
          split at hw'
          · exact hw'
          · exact (List.mem_cons.1 hw').resolve_left hwv
        obtain ⟨p, hp, h1, h2, h3⟩ := h.openp w hw'
        refine ⟨p, hp, by rw [hcf, if_neg hwv, h1], h2, ?_⟩
        rw [hg, hg, if_neg hwv, if_neg (hne p hp), h3]

/-- Folding `explore` over a list of successors: the invariant, the closed list, growth of the open list
and coverage of the explored successors. -/
theorem fold_explore {q : Queue V K} (hq : q.Faithful) {P : Problem V K} {cur : V} :
    ∀ (l : List V) (st : St V K), Inv P st → cur ∈ st.closed → (∀ v ∈ l, v ∈ P.succs cur) →
      Inv P (l.foldl (St.explore q P cur) st) ∧ (l.foldl (St.explore q P cur) st).closed = st.closed ∧
      (∀ w ∈ st.keys, w ∈ (l.foldl (St.explore q P cur) st).keys) ∧
      (∀ v ∈ l, v ∈ st.closed ∨ v ∈ (l.foldl (St.explore q P cur) st).keys)
  | [], st, h, _, _ => ⟨h, rfl, fun _ h => h, fun _ h => absurd h (by simp)⟩
  | v :: l, st, h, hc, hl => by
    have h1 := h.explore hq hc (hl v (by simp))
    have hcl := explore_closed q P cur st v
    have hk := explore_keys hq P cur st v
    obtain ⟨r1, r2, r3, r4⟩ := fold_explore hq l (st.explore q P cur v) h1 (by rw [hcl]; exact hc)
      (fun w hw => hl w (List.mem_cons_of_mem _ hw))
    rw [List.foldl_cons]
    refine ⟨r1, by rw [r2, hcl], fun w hw => r3 w ?_, ?_⟩
    · refine hk.mem_iff.2 ?_
      split
      · exact hw
      · exact List.mem_cons_of_mem _ hw
    · intro w hw
      rcases List.mem_cons.1 hw with rfl | hw
      · by_cases h' : w ∈ st.closed
        · exact Or.inl h'
        · refine Or.inr (r3 w (hk.mem_iff.2 ?_))
          split
          · rename_i h''; exact h''.resolve_left h'
          · simp
      · rw [← hcl]; exact r4 w hw

/-- The state from which `current` is expanded. -/
def St.close (q : Queue V K) (st : St V K) (cur : V) : St V K :=
  { st with openList := q.pop st.openList, closed := cur :: st.closed }

/-- Closing the head of the open list keeps the invariant. -/
theorem Inv.close {q : Queue V K} (hq : q.Faithful) {P : Problem V K} {st : St V K} (h : Inv P st)
    {cur : V} {f : K} {rest : List (V × K)} (ho : st.openList = (cur, f) :: rest) :
    Inv P (st.close q cur) ∧ (st.close q cur).keys.Perm (rest.map Prod.fst) := by
  have hkp : (st.close q cur).keys.Perm (rest.map Prod.fst) := by
    have := (hq.pop (cur, f) rest).map Prod.fst
    rw [← ho] at this
    exact this
  have hk : st.keys = cur :: rest.map Prod.fst := by simp [St.keys, ho]
  have hnd := h.nodup
  rw [hk] at hnd
  have hcur : cur ∈ st.keys := by rw [hk]; simp
  have hncl := h.disj cur hcur
  refine ⟨⟨?_, List.mem_cons_of_mem _ h.src, h.gsrc, ?_, ?_, ?_⟩, hkp⟩
  · have h0 : Ord P (st.close q cur) st.closed := Ord.congr (st := st) (fun _ _ => ⟨rfl, rfl⟩) h.ord
    refine ⟨h0, hncl, Or.inr ⟨fun e => hncl (e ▸ h.src), h.openp cur hcur⟩⟩
  · rw [hkp.nodup_iff]; exact (List.nodup_cons.1 hnd).2
  · intro w hw
    have hw' := hkp.mem_iff.1 hw
    have : w ∈ st.keys := by rw [hk]; exact List.mem_cons_of_mem _ hw'
    show w ∉ cur :: st.closed
    rw [List.mem_cons]
    rintro (rfl | h')
    · exact (List.nodup_cons.1 hnd).1 hw'
    · exact h.disj w this h'
  · intro w hw
    have hw' := hkp.mem_iff.1 hw
    have : w ∈ st.keys := by rw [hk]; exact List.mem_cons_of_mem _ hw'
    obtain ⟨p, hp, h1⟩ := h.openp w this
    exact ⟨p, List.mem_cons_of_mem _ hp, h1⟩

/-- All successors of closed coordinates are known. -/
def Covered (P : Problem V K) (st : St V K) : Prop :=
  ∀ u ∈ st.closed, ∀ v ∈ P.succs u, v ∈ st.closed ∨ v ∈ st.keys

/-- The state after expanding the head of the open list. -/
def St.next (q : Queue V K) (P : Problem V K) (st : St V K) (cur : V) : St V K :=
  (st.close q cur).expand q P cur

theorem next_spec {q : Queue V K} (hq : q.Faithful) {P : Problem V K} {st : St V K} (h : Inv P st)
    (hcov : Covered P st) {cur : V} {f : K} {rest : List (V × K)} (ho : st.openList = (cur, f) :: rest) :
    Inv P (st.next q P cur) ∧ Covered P (st.next q P cur) ∧ (st.next q P cur).closed = cur :: st.closed := by
  obtain ⟨h1, h2⟩ := h.close hq ho
  obtain ⟨r1, r2, r3, r4⟩ := fold_explore hq (P.succs cur) (st.close q cur) h1 (by simp [St.close])
    (fun v hv => hv)
  refine ⟨r1, ?_, r2⟩
  intro u hu v hv
  have hcl : (st.next q P cur).closed = cur :: st.closed := r2
  have hk : st.keys = cur :: rest.map Prod.fst := by simp [St.keys, ho]
  rw [hcl] at hu ⊢
  rcases List.mem_cons.1 hu with rfl | hu
  · exact r4 v hv
  · rcases hcov u hu v hv with h' | h'
    · exact Or.inl (List.mem_cons_of_mem _ h')
    · rw [hk] at h'
      rcases List.mem_cons.1 h' with rfl | h'
      · exact Or.inl (by simp)
      · exact Or.inr (r3 v (h2.mem_iff.2 h'))

/-- The same for the very first iteration. -/
theorem first_spec {q : Queue V K} (hq : q.Faithful) (P : Problem V K) :
    Inv P ((St.init q P).next q P P.source) ∧ Covered P ((St.init q P).next q P P.source) ∧
      ((St.init q P).next q P P.source).closed = [P.source] ∧
      (∃ f, (St.init q P).openList = [(P.source, f)]) ∧
      ((St.init q P).close q P.source).openList = [] := by
  have h0 : (St.init q P).openList = [(P.source, 0)] := by
    have := hq.push [] (P.source, (0 : K))
    exact List.perm_singleton.1 this
  have h1 : ((St.init q P).close q P.source).openList = [] := by
    have := hq.pop (P.source, (0 : K)) []
    show q.pop (St.init q P).openList = []
    rw [h0]
    exact List.perm_nil.1 this
  have hi : Inv P ((St.init q P).close q P.source) := by
    refine ⟨?_, by simp [St.close], rfl, ?_, ?_, ?_⟩
    · exact ⟨trivial, by simp [St.init], Or.inl ⟨rfl, rfl⟩⟩
    · simp [St.keys, h1]
    · simp [St.keys, h1]
    · simp [St.keys, h1]
  obtain ⟨r1, r2, r3, r4⟩ := fold_explore hq (P.succs P.source) _ hi (by simp [St.close])
    (fun v hv => hv)
  refine ⟨r1, ?_, r2, ⟨0, h0⟩, h1⟩
  intro u hu v hv
  have hcl : ((St.init q P).next q P P.source).closed = [P.source] := r2
  rw [hcl] at hu ⊢
  simp at hu
  subst hu
  exact r4 v hv

/-- Everything reachable. -/
def Reach (succs : V → List V) : V → V → Prop := Relation.ReflTransGen (fun u v => v ∈ succs u)

omit [DecidableEq V] in
theorem chain_reach (succs : V → List V) : ∀ (l : List V) (a b : V),
    l.IsChain (fun u w => w ∈ succs u) → l.head? = some a → l.getLast? = some b → Reach succs a b := by
  intro l
  induction l with
  | nil => intro a b _ h; simp at h
  | cons c l ih =>
    intro a b hc ha hb
    simp at ha; subst ha
    cases l with
    | nil => simp at hb; subst hb; exact Relation.ReflTransGen.refl
    | cons d l =>
      rw [List.isChain_cons_cons] at hc
      exact Relation.ReflTransGen.head hc.1 (ih d b hc.2 (by simp) (by simpa using hb))

/-- Result of the loop from any state satisfying the invariant. -/
theorem loop_spec {q : Queue V K} (hq : q.Faithful) (P : Problem V K) (n : Nat) (L : List V)
    (hL : ∀ v, Reach P.succs P.source v → v ∈ L) : ∀ (fuel : Nat) (st : St V K), Inv P st → Covered P st →
    P.target ∉ st.closed →
      (∀ r, loop q P n fuel st = some r → (r = [] ∧ ¬ Reach P.succs P.source P.target) ∨ Walk P P.target r) ∧
      (L.length < n → L.length < fuel + st.closed.length → loop q P n fuel st ≠ none) := by
  intro fuel
  induction fuel with
  | zero =>
    intro st h _ _
    refine ⟨by simp [loop], fun _ hl => ?_⟩
    exfalso
    have hsub : st.closed ⊆ L := by
      intro v hv
      obtain ⟨path, hw, -⟩ := walk_exists P st h.gsrc st.closed h.ord v hv
      exact hL v (chain_reach _ path _ _ hw.chain hw.head hw.last)
    have := (h.ord.nodup.subperm hsub).length_le
    omega
  | succ fuel ih =>
    intro st h hcov ht
    cases ho : st.openList with
    | nil =>
      have he : loop q P n (fuel + 1) st = some [] := by simp [loop, ho]
      rw [he]
      refine ⟨fun r hr => Or.inl ⟨by simpa using hr.symm, fun hreach => ?_⟩, by simp⟩
      apply ht
      have : ∀ v, Reach P.succs P.source v → v ∈ st.closed := by
        intro v hv
        induction hv with
        | refl => exact h.src
        | tail _ hs ih => exact (hcov _ ih _ hs).resolve_right (by simp [St.keys, ho])
      exact this _ hreach
    | cons e rest =>
      obtain ⟨cur, f⟩ := e
      by_cases hct : cur = P.target
      · have he : loop q P n (fuel + 1) st = walkBack st.cameFrom P.source n P.target [] := by
          simp [loop, ho, hct]
        obtain ⟨h1, -⟩ := h.close hq ho
        obtain ⟨path, hw, hsub, -, hb⟩ := walk_exists P (st.close q cur) h1.gsrc _ h1.ord cur (by simp [St.close])
        have hb' : walkBack st.cameFrom P.source n P.target [] =
            if path.length ≤ n then some (path ++ []) else none := by
          rw [← hct]; exact hb n []
        rw [he, hb']
        refine ⟨?_, ?_⟩
        · intro r hr
          split at hr
          · simp at hr; subst hr; exact Or.inr (hct ▸ hw)
          · simp at hr
        · intro hn hl
          have hsubL : path ⊆ L := by
            intro v hv
            obtain ⟨path', hw', -⟩ := walk_exists P (st.close q cur) h1.gsrc _ h1.ord v (hsub hv)
            exact hL v (chain_reach _ path' _ _ hw'.chain hw'.head hw'.last)
          have := (hw.nodup.subperm hsubL).length_le
          rw [if_pos (by omega)]
          simp
      · have he : loop q P n (fuel + 1) st = loop q P n fuel (st.next q P cur) := by
          simp [loop, ho, hct, St.next, St.close]
        obtain ⟨h1, h2, h3⟩ := next_spec hq h hcov ho
        have := ih _ h1 h2 (by rw [h3]; simp [Ne.symm hct, ht])
        rw [he]
        refine ⟨this.1, fun hn hl => this.2 hn ?_⟩
        rw [h3]; simp only [List.length_cons]; omega

end Verif.Paths
