import Verif.Paths.Props

/-!
# C24: `enumerate_all_paths` returns every simple path exactly once
-/
namespace Verif.Paths

open Verif.Layouts Verif.Clocking

section
variable {V : Type} [DecidableEq V]

/-- Spec: a path from `a` to `b` along successors that visits no coordinate twice and none of `vis`. -/
structure Simple (succs : V → List V) (vis : List V) (a b : V) (p : List V) : Prop where
  chain : p.IsChain (fun u w => w ∈ succs u)
  head : p.head? = some a
  last : p.getLast? = some b
  nodup : p.Nodup
  avoid : ∀ w ∈ p, w ∉ vis

theorem Simple.cons_iff (succs : V → List V) (vis : List V) (a b : V) (hab : a ≠ b) (ha : a ∉ vis) (p : List V) :
    Simple succs vis a b p ↔ ∃ v s, p = a :: s ∧ v ∈ succs a ∧ v ∉ a :: vis ∧ Simple succs (a :: vis) v b s := by
  constructor
  · rintro ⟨h1, h2, h3, h4, h5⟩
    match p with
    | [] => simp at h2
    | [c] => simp at h2 h3; exact absurd (h2.symm.trans h3) hab
    | c :: d :: s =>
      simp at h2; subst h2
      rw [List.isChain_cons_cons] at h1
      rw [List.nodup_cons] at h4
      refine ⟨d, d :: s, rfl, h1.1, ?_, h1.2, by simp, by simpa using h3, h4.2, ?_⟩
      · intro h
        rcases List.mem_cons.1 h with rfl | h
        · exact h4.1 (by simp)
        · exact h5 d (by simp) h
      · intro w hw h
        rcases List.mem_cons.1 h with rfl | h
        · exact h4.1 hw
        · exact h5 w (List.mem_cons_of_mem _ hw) h
  · rintro ⟨v, s, rfl, hv, hv', h⟩
    match s, h with
    | [], h => exact absurd h.head (by simp)
    | d :: s, ⟨h1, h2, h3, h4, h5⟩ =>
      simp at h2; subst h2
      refine ⟨List.isChain_cons_cons.2 ⟨hv, h1⟩, by simp, by simpa using h3, ?_, ?_⟩
      · rw [List.nodup_cons]
        exact ⟨fun h => h5 a h (by simp), h4⟩
      · intro w hw
        rcases List.mem_cons.1 hw with rfl | hw
        · exact ha
        · exact fun h => h5 w hw (List.mem_cons_of_mem _ h)

theorem Simple.self_iff (succs : V → List V) (vis : List V) (a : V) (ha : a ∉ vis) (p : List V) :
    Simple succs vis a a p ↔ p = [a] := by
  constructor
  · rintro ⟨h1, h2, h3, h4, h5⟩
    match p with
    | [] => simp at h2
    | [c] => simp at h2; rw [h2]
    | c :: d :: s =>
      simp at h2; subst h2
      rw [List.nodup_cons] at h4
      have : c ∈ d :: s := List.mem_of_getLast? (by simpa using h3)
      exact absurd this h4.1
  · rintro rfl
    exact ⟨by simp, by simp, by simp, by simp, by simpa using ha⟩

/-- What a recursion adds to the collection. -/
private structure Adds (vis : List V) (p : List V) (st st' : ESt V) (Q : List V → Prop) (nd : Prop) : Prop where
  vis : st'.visited = vis
  col : ∃ L : List (List V), st'.collection = st.collection ++ L.map (p ++ ·) ∧ (∀ s, s ∈ L ↔ Q s) ∧ (nd → L.Nodup)

private theorem fold_none (succs : V → List V) (tgt : V) (fuel : Nat) (p : List V) : ∀ vs : List V,
    vs.foldl (fun (acc : Option (ESt V)) v => acc.bind fun st =>
      if v ∈ st.visited then some st else enumRec succs tgt fuel v p st) none = none
  | [] => rfl
  | _ :: vs => by rw [List.foldl_cons]; exact fold_none succs tgt fuel p vs

private theorem fold_adds (succs : V → List V) (tgt : V) (nd : Prop) (fuel : Nat) (p : List V) (vis : List V)
    (ih : ∀ (v : V) (st st' : ESt V), st.visited = vis → v ∉ vis → enumRec succs tgt fuel v p st = some st' →
      Adds vis p st st' (Simple succs vis v tgt) nd) : ∀ (vs : List V) (st st' : ESt V), st.visited = vis →
    vs.foldl (fun (acc : Option (ESt V)) v => acc.bind fun st =>
      if v ∈ st.visited then some st else enumRec succs tgt fuel v p st) (some st) = some st' →
    Adds vis p st st' (fun s => ∃ v ∈ vs, v ∉ vis ∧ Simple succs vis v tgt s) (nd ∧ vs.Nodup) := by
  intro vs
  induction vs with
  | nil =>
    intro st st' hv h
    simp at h; subst h
    exact ⟨hv, [], by simp, by simp, by simp⟩
  | cons v vs ihv =>
    intro st st' hv h
    rw [List.foldl_cons] at h
    by_cases hm : v ∈ vis
    · simp only [Option.bind_some, hv, hm, if_true] at h
      obtain ⟨h1, L, h2, h3, h4⟩ := ihv st st' hv h
      refine ⟨h1, L, h2, ?_, fun hnd => h4 ⟨hnd.1, (List.nodup_cons.1 hnd.2).2⟩⟩
      intro s
      rw [h3]
      constructor
      · rintro ⟨w, hw, k⟩; exact ⟨w, List.mem_cons_of_mem _ hw, k⟩
      · rintro ⟨w, hw, k1, k2⟩
        rcases List.mem_cons.1 hw with rfl | hw
        · exact absurd hm k1
        · exact ⟨w, hw, k1, k2⟩
    · simp only [Option.bind_some, hv, hm, if_false] at h
      cases he : enumRec succs tgt fuel v p st with
      | none => rw [he, fold_none] at h; simp at h
      | some st1 =>
        rw [he] at h
        obtain ⟨a1, L1, a2, a3, a4⟩ := ih v st st1 hv hm he
        obtain ⟨b1, L2, b2, b3, b4⟩ := ihv st1 st' a1 h
        refine ⟨b1, L1 ++ L2, by rw [b2, a2]; simp, ?_, ?_⟩
        · intro s
          rw [List.mem_append, a3, b3]
          constructor
          · rintro (k | ⟨w, hw, k⟩)
            · exact ⟨v, by simp, hm, k⟩
            · exact ⟨w, List.mem_cons_of_mem _ hw, k⟩
          · rintro ⟨w, hw, k1, k2⟩
            rcases List.mem_cons.1 hw with rfl | hw
            · exact Or.inl k2
            · exact Or.inr ⟨w, hw, k1, k2⟩
        · rintro ⟨hnd, hvs⟩
          rw [List.nodup_cons] at hvs
          rw [List.nodup_append]
          refine ⟨a4 hnd, b4 ⟨hnd, hvs.2⟩, ?_⟩
          rintro s hs _ ht rfl
          obtain ⟨w, hw, _, k⟩ := (b3 s).1 ht
          have := ((a3 s).1 hs).head.symm.trans k.head
          simp at this
          exact hvs.1 (this ▸ hw)

private theorem enumRec_adds (succs : V → List V) (tgt : V) : ∀ (fuel : Nat) (src : V) (p vis : List V)
    (st st' : ESt V), st.visited = vis → src ∉ vis → enumRec succs tgt fuel src p st = some st' →
      Adds vis p st st' (Simple succs vis src tgt) (∀ v, (succs v).Nodup) := by
  intro fuel
  induction fuel with
  | zero => intro src p vis st st' _ _ h; simp [enumRec] at h
  | succ fuel ih =>
    intro src p vis st st' hv hs h
    have hfil : (src :: vis).filter (fun w => w ≠ src) = vis := by
      rw [List.filter_cons]
      simp only [ne_eq, not_true_eq_false, decide_false, Bool.false_eq_true, if_false]
      rw [List.filter_eq_self]
      intro a ha
      simp only [decide_eq_true_eq]
      exact fun e => hs (e ▸ ha)
    rw [enumRec] at h
    by_cases ht : src = tgt
    · simp only [ht, if_true, Option.map_some, Option.some.injEq] at h
      subst ht; subst h; subst hv
      refine ⟨hfil, [[src]], by simp, ?_, by simp⟩
      intro s
      rw [Simple.self_iff _ _ _ hs]; simp
    · simp only [ht, if_false, Option.map_eq_some_iff] at h
      obtain ⟨st1, h1, rfl⟩ := h
      obtain ⟨a1, L, a2, a3, a4⟩ := fold_adds succs tgt (∀ v, (succs v).Nodup) fuel (p ++ [src]) (src :: vis)
        (fun v st st' hv hm he => ih v (p ++ [src]) (src :: vis) st st' hv hm he) (succs src)
        { st with visited := src :: st.visited } st1 (by simp [hv]) h1
      refine ⟨by simp only [a1]; exact hfil, L.map (src :: ·), ?_, ?_, ?_⟩
      · simp only [a2]
        rw [List.map_map]
        simp [Function.comp_def]
      · intro s
        rw [Simple.cons_iff _ _ _ _ ht hs, List.mem_map]
        constructor
        · rintro ⟨s', hs', rfl⟩
          obtain ⟨v, hv1, hv2, hv3⟩ := (a3 s').1 hs'
          exact ⟨v, s', rfl, hv1, hv2, hv3⟩
        · rintro ⟨v, s', rfl, hv1, hv2, hv3⟩
          exact ⟨s', (a3 s').2 ⟨v, hv1, hv2, hv3⟩, rfl⟩
      · intro hnd
        rw [List.Nodup, List.pairwise_map]
        refine (a4 ⟨hnd, hnd src⟩).imp ?_
        intro a b hab he
        exact hab (List.cons.inj he).2

/-- With enough fuel the recursion ends. -/
private theorem enumRec_total (succs : V → List V) (tgt : V) (U : List V) (hU : ∀ u ∈ U, ∀ v ∈ succs u, v ∈ U) :
    ∀ (fuel : Nat) (src : V) (p vis : List V) (st : ESt V), st.visited = vis → src ∉ vis → src ∈ U →
      (∀ w ∈ vis, w ∈ U) → vis.Nodup → U.length < fuel + vis.length →
      ∃ st', enumRec succs tgt fuel src p st = some st' ∧ st'.visited = vis := by
  intro fuel
  induction fuel with
  | zero =>
    intro src p vis st hv hs hsU hvis hnd hlt
    have := (List.Nodup.subperm hnd hvis).length_le
    omega
  | succ fuel ih =>
    intro src p vis st hv hs hsU hvis hnd hlt
    have hex : ∃ st', enumRec succs tgt (fuel + 1) src p st = some st' := by
      rw [enumRec]
      by_cases ht : src = tgt
      · simp [ht]
      · simp only [ht, if_false]
        have hfold : ∀ (vs : List V), (∀ v ∈ vs, v ∈ U) → ∀ st : ESt V, st.visited = src :: vis →
            ∃ st', vs.foldl (fun (acc : Option (ESt V)) v => acc.bind fun st =>
              if v ∈ st.visited then some st else enumRec succs tgt fuel v (p ++ [src]) st) (some st) = some st' := by
          intro vs
          induction vs with
          | nil => intro _ st _; exact ⟨st, rfl⟩
          | cons v vs ihv =>
            intro hvs st hst
            rw [List.foldl_cons]
            have hvs' : ∀ w ∈ vs, w ∈ U := fun w hw => hvs w (List.mem_cons_of_mem _ hw)
            simp only [Option.bind_some, hst]
            by_cases hm : v ∈ src :: vis
            · rw [if_pos hm]; exact ihv hvs' st hst
            · rw [if_neg hm]
              obtain ⟨st', k1, k2⟩ := ih v (p ++ [src]) (src :: vis) st hst hm (hvs v (by simp))
                (by intro w hw; rcases List.mem_cons.1 hw with rfl | hw
                    · exact hsU
                    · exact hvis w hw)
                (List.nodup_cons.2 ⟨hs, hnd⟩) (by simp only [List.length_cons]; omega)
              rw [k1]
              exact ihv hvs' st' k2
        obtain ⟨st', hst'⟩ := hfold (succs src) (hU src hsU) { st with visited := src :: st.visited } (by simp [hv])
        rw [hst']
        exact ⟨_, rfl⟩
    obtain ⟨st', h⟩ := hex
    exact ⟨st', h, (enumRec_adds succs tgt _ src p vis st st' hv hs h).vis⟩

end

/-- Spec: one step of a wire as `enumerate_all_paths` understands it. It differs from the steps of A*
(`Move`) in that the target is never entered from the crossing layer. -/
def EnumMove (l : RLayout) (crossings : Bool) (target u v : Coord) : Prop :=
  ∃ n ∈ l.neighbours u, l.obstructedConn u v = false ∧
    ((v = Cart.below n ∧ (l.obstructed v = false ∨ v = target)) ∨
      (crossings = true ∧ v = Cart.above l.m (Cart.below n) ∧ v ≠ Cart.below n ∧ v ≠ target ∧
        l.obstructed v = false ∧ l.obstructed (Cart.below n) = true ∧ Cart.below n ≠ target ∧
        l.crossable u (Cart.below n) = true))

theorem mem_succsEnum (l : RLayout) (cr : Bool) (t u v : Coord) :
    v ∈ l.succsEnum cr t u ↔ EnumMove l cr t u v := by
  unfold RLayout.succsEnum EnumMove
  rw [List.mem_filterMap]
  refine exists_congr (fun n => and_congr_right (fun _ => ?_))
  unfold RLayout.resolveEnum
  grind

theorem EnumMove.move {l : RLayout} {cr : Bool} {t u v : Coord} (h : EnumMove l cr t u v) : Move l cr t u v := by
  unfold EnumMove at h; unfold Move; grind

theorem succsEnum_nodup (l : RLayout) (hX : l.m.X < 2^31 - 1) (hY : l.m.Y < 2^31 - 1) (cr : Bool) (t u : Coord)
    (h : InBounds l.m u) : (l.succsEnum cr t u).Nodup := by
  have hadj : (l.tp.adjacent l.m u).Nodup ∧ ∀ e ∈ l.tp.adjacent l.m u, InBounds l.m e ∧ e.z = u.z := by
    cases ht : l.tp with
    | cart =>
      have := C07_adjacent_exact l.m u h
      exact ⟨this.2, fun e he => ⟨((this.1 e).1 he).1, ((this.1 e).1 he).2.1.symm⟩⟩
    | hex a =>
      refine ⟨C09_adjacent_nodup a l.m hX hY u h, fun e he => ?_⟩
      have := (C09_adjacent_exact a l.m hX hY u e h).1 he
      exact ⟨this.1, this.2.1.symm⟩
  have hn : (l.neighbours u).Nodup ∧ ∀ e ∈ l.neighbours u, InBounds l.m e ∧ e.z = u.z := by
    unfold RLayout.neighbours
    split
    · exact ⟨hadj.1.filter _, fun e he => hadj.2 e (List.mem_filter.1 he).1⟩
    · exact hadj
  unfold RLayout.succsEnum
  rw [List.Nodup, List.pairwise_filterMap]
  refine (List.Pairwise.and_mem.1 hn.1).imp ?_
  rintro a b ⟨ha, hb, hab⟩ v hv w hw rfl
  have xy : ∀ n v, l.resolveEnum cr t u n = some v → v.x = n.x ∧ v.y = n.y := by
    intro n v h
    have e1 : (Cart.below n).x = n.x ∧ (Cart.below n).y = n.y := by
      unfold Cart.below; constructor <;> split_ifs <;> rfl
    have : v = Cart.below n ∨ v = Cart.above l.m (Cart.below n) := by
      unfold RLayout.resolveEnum at h; grind
    rcases this with rfl | rfl
    · exact e1
    · rw [← e1.1, ← e1.2]; exact above_xy _ _
  have h1 := xy a v hv
  have h2 := xy b v hw
  have h3 := hn.2 a ha
  have h4 := hn.2 b hb
  apply hab
  obtain ⟨ax, ay, az, ad⟩ := a
  obtain ⟨bx, b_y, bz, bd⟩ := b
  simp only [InBounds] at h1 h2 h3 h4
  simp only [Coord.mk.injEq]
  refine ⟨by omega, by omega, by omega, by rw [h3.1.1, h4.1.1]⟩

/-- C24. `enumerate_all_paths` terminates and returns exactly the simple paths from source to target that
consist of permitted steps, each of them once. -/
theorem C24_exact (l : RLayout) (hX : l.m.X < 2^31 - 1) (hY : l.m.Y < 2^31 - 1) (crossings : Bool)
    (source target : Coord) (hs : InBounds l.m source) (fuel : Nat)
    (hf : (l.m.X + 1) * ((l.m.Y + 1) * (l.m.Z + 1)) < fuel) :
    ∃ ps, enumerateLayout l crossings source target fuel = some ps ∧ ps.Nodup ∧
      ∀ p, p ∈ ps ↔ p.head? = some source ∧ p.getLast? = some target ∧ p.Nodup ∧
        p.IsChain (EnumMove l crossings target) := by
  -- outside of the layout no step is taken: restrict the successors to the coordinates of the layout
  have hin : ∀ u v, InBounds l.m u → EnumMove l crossings target u v → InBounds l.m v :=
    fun u v hu h => Move.inBounds hX hY hu h.move
  let S : Coord → List Coord := fun u => if u ∈ box l.m then l.succsEnum crossings target u else []
  have hS : ∀ (fuel : Nat) (src : Coord) (p : List Coord) (st : ESt Coord), InBounds l.m src →
      enumRec (l.succsEnum crossings target) target fuel src p st = enumRec S target fuel src p st := by
    intro fuel
    induction fuel with
    | zero => intro src p st _; rfl
    | succ fuel ih =>
      intro src p st h
      rw [enumRec, enumRec]
      have hSs : S src = l.succsEnum crossings target src := if_pos ((mem_box _ _).2 h)
      rw [hSs]
      have : ∀ (vs : List Coord), (∀ v ∈ vs, InBounds l.m v) → ∀ (a : Option (ESt Coord)),
          vs.foldl (fun (acc : Option (ESt Coord)) v => acc.bind fun st =>
            if v ∈ st.visited then some st else enumRec (l.succsEnum crossings target) target fuel v (p ++ [src]) st) a =
          vs.foldl (fun (acc : Option (ESt Coord)) v => acc.bind fun st =>
            if v ∈ st.visited then some st else enumRec S target fuel v (p ++ [src]) st) a := by
        intro vs
        induction vs with
        | nil => intro _ a; rfl
        | cons v vs ihv =>
          intro hvs a
          rw [List.foldl_cons, List.foldl_cons, ihv (fun w hw => hvs w (List.mem_cons_of_mem _ hw))]
          congr 1
          cases a with
          | none => rfl
          | some st' => simp only [Option.bind_some]; rw [ih v _ _ (hvs v (by simp))]
      simp only [this _ (fun v hv => hin src v h ((mem_succsEnum _ _ _ _ _).1 hv))]
  have hU : ∀ u ∈ box l.m, ∀ v ∈ S u, v ∈ box l.m := by
    intro u hu v hv
    rw [show S u = l.succsEnum crossings target u from if_pos hu] at hv
    exact (mem_box _ _).2 (hin u v ((mem_box _ _).1 hu) ((mem_succsEnum _ _ _ _ _).1 hv))
  obtain ⟨st', h1, h2⟩ := enumRec_total S target (box l.m) hU fuel source [] [] { visited := [], collection := [] }
    rfl (by simp) ((mem_box _ _).2 hs) (by simp) (by simp) (by rw [length_box]; simpa using hf)
  obtain ⟨-, L, a2, a3, a4⟩ := enumRec_adds S target fuel source [] [] _ st' rfl (by simp) h1
  have a2' : st'.collection = L := by simpa using a2
  refine ⟨L, by unfold enumerateLayout enumerateAllPaths; rw [hS _ _ _ _ hs, h1]; simp [a2'], ?_, ?_⟩
  · refine a4 (fun v => ?_)
    show (if v ∈ box l.m then _ else _ : List Coord).Nodup
    split
    · rename_i hv
      exact succsEnum_nodup l hX hY crossings target v ((mem_box _ _).1 hv)
    · simp
  · have hch : ∀ (p : List Coord) (a : Coord), InBounds l.m a → p.head? = some a →
        (p.IsChain (fun u w => w ∈ S u) ↔ p.IsChain (EnumMove l crossings target)) := by
      intro p
      induction p with
      | nil => intro a _ h; simp at h
      | cons c p ih =>
        intro a ha h
        simp at h; subst h
        cases p with
        | nil => simp
        | cons d p =>
          rw [List.isChain_cons_cons, List.isChain_cons_cons]
          have hSc : S c = l.succsEnum crossings target c := if_pos ((mem_box _ _).2 ha)
          rw [hSc, mem_succsEnum]
          exact and_congr_right (fun hm => ih d (hin c d ha hm) (by simp))
    intro p
    rw [a3]
    constructor
    · rintro ⟨k1, k2, k3, k4, -⟩
      exact ⟨k2, k3, k4, (hch p source hs k2).1 k1⟩
    · rintro ⟨k1, k2, k3, k4⟩
      exact ⟨(hch p source hs k1).2 k4, k1, k2, k3, by simp⟩

/-- C24. The enumeration and A* agree as long as the target lies in the ground layer: the enumeration
then returns the simple paths of `C21_path_valid`. -/
theorem C24_same_moves (l : RLayout) (crossings : Bool) (target u v : Coord) (hz : target.z = 0)
    (hX : l.m.X < 2^31 - 1) (hY : l.m.Y < 2^31 - 1) (hu : InBounds l.m u) :
    EnumMove l crossings target u v ↔ Move l crossings target u v := by
  refine ⟨EnumMove.move, ?_⟩
  rintro ⟨n, hn, h1, h2, h3⟩
  refine ⟨n, hn, h1, ?_⟩
  rcases h3 with rfl | ⟨k1, rfl, k3, k4, k5, k6⟩
  · exact Or.inl ⟨rfl, h2⟩
  · have hnt : Cart.above l.m (Cart.below n) ≠ target := by
      intro he
      apply k3
      have hz' : (Cart.above l.m (Cart.below n)).z = 0 := by rw [he]; exact hz
      have hb : InBounds l.m (Cart.below n) :=
        (C06_moves_in_bounds l.m n (neighbours_inBounds l hX hY hu hn)).2.2.2.2.2.1
      have hbz := hb.2.2.2
      unfold Cart.above at hz' ⊢
      split_ifs at hz' ⊢ <;> first | rfl | (dsimp only at hz'; omega)
    exact Or.inr ⟨k1, rfl, k3, hnt, h2.resolve_right hnt, k4, k5, k6.resolve_right hnt⟩

/-- C24 (disagreement with A*). A target in the crossing layer is reached by `a_star` but by no
enumerated path. -/
theorem C24_crossing_target_missed : ∃ (l : RLayout) (source target : Coord), InBounds l.m source ∧
    InBounds l.m target ∧
    (∃ p, aStarLayout (stdQueue Coord Nat) l true unitCost manhattan source target 7 = some p ∧ p.length = 2) ∧
    enumerateLayout l true source target 7 = some [] := by
  refine ⟨⟨.cart, ⟨1, 0, 1⟩, none, fun c => c == ⟨1, 0, 0, false⟩, fun _ _ => false, fun _ _ => true⟩,
    ⟨0, 0, 0, false⟩, ⟨1, 0, 1, false⟩, by decide, by decide, ⟨_, rfl, by decide +kernel⟩, by decide +kernel⟩

-- the enumeration on a 3 × 3 grid
example : (enumerateLayout ⟨.cart, ⟨2, 2, 0⟩, none, fun c => c == ⟨1, 1, 0, false⟩, fun _ _ => false, fun _ _ => false⟩
    false ⟨0, 0, 0, false⟩ ⟨2, 2, 0, false⟩ 10).map List.length = some 2 := by decide +kernel
example : (enumerateLayout demoLayout true ⟨0, 0, 0, false⟩ ⟨4, 2, 0, false⟩ 31).map List.length = some 4 := by
  decide +kernel

end Verif.Paths
