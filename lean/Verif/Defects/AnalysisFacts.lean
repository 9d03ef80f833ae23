import Verif.Defects.Analysis
import Verif.Defects.SurfaceProps
import Mathlib.Data.List.FinRange

/-!
# Facts about affected positions and black lists
-/
namespace Verif.Defects

open Verif.Cells Verif.Library Verif.Layouts

theorem mem_foldl_setInsert {K : Type} [DecidableEq K] (l acc : List K) (a : K) :
    a ∈ l.foldl setInsert acc ↔ a ∈ acc ∨ a ∈ l := by
  induction l generalizing acc with
  | nil => simp
  | cons b l ih => rw [List.foldl_cons, ih, mem_setInsert]; simp only [List.mem_cons]; tauto

theorem nodup_foldl_setInsert {K : Type} [DecidableEq K] (l : List K) {acc : List K} (h : acc.Nodup) :
    (l.foldl setInsert acc).Nodup := by
  induction l generalizing acc with
  | nil => exact h
  | cons b l ih => exact ih (nodup_setInsert h b)

theorem mem_around (a e : Nat) (n : Int) : n ∈ around a e ↔ (a : Int) - e ≤ n ∧ n ≤ a + e := by
  unfold around
  simp only [List.mem_map, List.mem_range]
  constructor
  · rintro ⟨i, hi, rfl⟩; omega
  · rintro ⟨h1, h2⟩; exact ⟨(n - (a - e)).toNat, by omega, by omega⟩

/-- Conditional insertion over a list of candidates. -/
theorem fold_row {A K : Type} [DecidableEq K] (f : A → K) (ok : K → Bool) (l : List A) (acc : List K) :
    l.foldl (fun acc x => if ok (f x) then setInsert acc (f x) else acc) acc
      = ((l.map f).filter ok).foldl setInsert acc := by
  induction l generalizing acc with
  | nil => rfl
  | cons a l ih =>
    simp only [List.foldl_cons, List.map_cons, List.filter_cons]
    rw [ih]
    by_cases h : ok (f a) <;> simp [h]

theorem fold_rows {A B K : Type} [DecidableEq K] (f : A → B → K) (ok : K → Bool) (l : List A) (r : List B) (acc : List K) :
    l.foldl (fun acc y => r.foldl (fun acc x => if ok (f y x) then setInsert acc (f y x) else acc) acc) acc
      = (l.flatMap (fun y => (r.map (f y)).filter ok)).foldl setInsert acc := by
  induction l generalizing acc with
  | nil => rfl
  | cons a l ih =>
    simp only [List.foldl_cons, List.flatMap_cons, List.foldl_append]
    rw [ih, fold_row (f a) ok]

/-- The positions, columns and rows that the fields can hold without wrapping around into the surface. -/
structure Fits (m : Dim) (s : Surface CellPos) : Prop where
  width : m.X + 65536 ≤ 2147483648
  height : m.Y + 65536 ≤ 2147483648
  defects : ∀ p ∈ s.visited, p.1.1 + 65536 ≤ 2147483648 ∧ p.1.2.1 + 65536 ≤ 2147483648

theorem extent_small (d : Defect) (co no : Option (Nat × Nat)) (hc : ∀ p, co = some p → p.1 < 65536 ∧ p.2 < 65536)
    (hn : ∀ p, no = some p → p.1 < 65536 ∧ p.2 < 65536) : (extent d co no).1 < 65536 ∧ (extent d co no).2 < 65536 := by
  unfold extent
  split_ifs
  · cases co with
    | none => decide
    | some p => exact hc p rfl
  · cases no with
    | none => decide
    | some p => exact hn p rfl
  · decide

/-- A position within the reach `e` of position `c`, in the same layer. -/
def Near (c : CellPos) (e : Nat × Nat) (p : CellPos) : Prop :=
  c.1 ≤ p.1 + e.1 ∧ p.1 ≤ c.1 + e.1 ∧ c.2.1 ≤ p.2.1 + e.2 ∧ p.2.1 ≤ c.2.1 + e.2 ∧ p.2.2 = c.2.2

theorem toField_small (n : Int) (h0 : 0 ≤ n) (h1 : n < 2147483648) : toField n = n.toNat := by
  unfold toField; rw [Int.emod_eq_of_lt h0 h1]

theorem toField_neg (n : Int) (h0 : n < 0) (h1 : -65536 < n) : toField n = (n + 2147483648).toNat := by
  unfold toField
  have : n % 2147483648 = n + 2147483648 := by omega
  rw [this]

/-- What one defect affects. -/
theorem affected_spec (m : Dim) (s : Surface CellPos) (hf : Fits m s) (hok : Ok s) (c : CellPos)
    (co no : Option (Nat × Nat)) (hc : ∀ p, co = some p → p.1 < 65536 ∧ p.2 < 65536)
    (hn : ∀ p, no = some p → p.1 < 65536 ∧ p.2 < 65536) :
    ∃ l, affected m s c co no = some l ∧ l.Nodup ∧
      ∀ p, p ∈ l ↔ (s.get c).type ≠ .none ∧ Near c (extent (s.get c) co no) p ∧ within m p = true := by
  unfold affected
  dsimp only
  by_cases hd : (s.get c).type ≠ .none
  · rw [if_pos hd]
    obtain ⟨d, hfd⟩ := Option.ne_none_iff_exists'.1 ((get_type hok c).1 hd)
    have hfit := hf.defects (c, d) (find_mem hfd)
    dsimp only at hfit
    have he := extent_small (s.get c) co no hc hn
    generalize extent (s.get c) co no = e at he ⊢
    have hlt : c.1 + e.1 < fieldSize ∧ c.2.1 + e.2 < fieldSize := by unfold fieldSize; omega
    rw [if_pos hlt]
    refine ⟨_, rfl, ?_, fun p => ?_⟩
    · rw [fold_rows (fun y x => ((toField x, toField y, c.2.2) : CellPos)) (within m)]
      exact nodup_foldl_setInsert _ List.nodup_nil
    · rw [fold_rows (fun y x => ((toField x, toField y, c.2.2) : CellPos)) (within m), mem_foldl_setInsert]
      simp only [List.not_mem_nil, false_or, List.mem_flatMap, List.mem_filter, List.mem_map, mem_around]
      have hw := hf.width
      have hh := hf.height
      constructor
      · rintro ⟨y, hy, ⟨x, hx, rfl⟩, hin⟩
        refine ⟨hd, ?_, hin⟩
        simp only [within, Bool.and_eq_true, decide_eq_true_eq] at hin
        have hx0 : 0 ≤ x := by
          by_contra hneg
          have := toField_neg x (by omega) (by omega)
          omega
        have hy0 : 0 ≤ y := by
          by_contra hneg
          have := toField_neg y (by omega) (by omega)
          omega
        unfold Near
        dsimp only
        rw [toField_small x hx0 (by omega), toField_small y hy0 (by omega)]
        refine ⟨?_, ?_, ?_, ?_, rfl⟩ <;> omega
      · rintro ⟨-, hnear, hin⟩
        obtain ⟨px, py, pz⟩ := p
        unfold Near at hnear
        obtain ⟨h1, h2, h3, h4, h5⟩ := hnear
        dsimp only at h1 h2 h3 h4 h5
        refine ⟨(py : Int), by omega, ⟨(px : Int), by omega, ?_⟩, hin⟩
        rw [toField_small _ (by omega) (by omega), toField_small _ (by omega) (by omega), h5]
        rfl
  · rw [if_neg hd]
    exact ⟨[], rfl, List.nodup_nil, fun p => by simp [not_not.1 hd]⟩

theorem foldlM_insert {A K : Type} [DecidableEq K] (f : A → Option (List K)) (l : List A) (acc : List K) (hacc : acc.Nodup)
    (hf : ∀ a ∈ l, ∃ r, f a = some r) :
    ∃ out, l.foldlM (fun acc a => (f a).map (fun r => r.foldl setInsert acc)) acc = some out ∧ out.Nodup ∧
      ∀ k, k ∈ out ↔ k ∈ acc ∨ ∃ a ∈ l, ∃ r, f a = some r ∧ k ∈ r := by
  induction l generalizing acc with
  | nil => exact ⟨acc, rfl, hacc, by simp⟩
  | cons a l ih =>
    obtain ⟨r, hr⟩ := hf a (by simp)
    obtain ⟨out, ho, hnd, hm⟩ := ih (r.foldl setInsert acc) (nodup_foldl_setInsert _ hacc)
      (fun b hb => hf b (List.mem_cons_of_mem _ hb))
    refine ⟨out, ?_, hnd, fun k => ?_⟩
    · rw [List.foldlM_cons, hr]; exact ho
    · rw [hm, mem_foldl_setInsert]
      constructor
      · rintro ((h | h) | ⟨b, hb, r', h, hk⟩)
        · exact Or.inl h
        · exact Or.inr ⟨a, by simp, r, hr, h⟩
        · exact Or.inr ⟨b, List.mem_cons_of_mem _ hb, r', h, hk⟩
      · rintro (h | ⟨b, hb, r', h, hk⟩)
        · exact Or.inl (Or.inl h)
        · rcases List.mem_cons.1 hb with e | hb
          · subst e
            rw [hr] at h
            cases h
            exact Or.inl (Or.inr hk)
          · exact Or.inr ⟨b, hb, r', h, hk⟩

theorem narrow_small (o : Option (Nat × Nat)) : ∀ p, narrow o = some p → p.1 < 65536 ∧ p.2 < 65536 := by
  intro p hp
  cases o with
  | none => cases hp
  | some q =>
    simp only [narrow, Option.map_some, Option.some.injEq] at hp
    subst hp
    exact ⟨Nat.mod_lt _ (by omega), Nat.mod_lt _ (by omega)⟩

theorem narrow_id (o : Option (Nat × Nat)) (h : ∀ p, o = some p → p.1 < 65536 ∧ p.2 < 65536) : narrow o = o := by
  cases o with
  | none => rfl
  | some p =>
    obtain ⟨h1, h2⟩ := h p rfl
    simp [narrow, Nat.mod_eq_of_lt h1, Nat.mod_eq_of_lt h2]

/-! ## Black lists -/

section
variable {X Y : Nat} {Fn Pl : Type} [DecidableEq Fn]

theorem entry_push (bl : BlackList Fn Pl) (t t' : Coord) (f f' : Fn) (p : Pl) :
    (bl.push t f p).entry t' f' = if t' = t ∧ f' = f then some ((bl.entry t f).getD [] ++ [p]) else bl.entry t' f' := by
  unfold BlackList.push BlackList.entry
  dsimp only
  rw [find_assign]
  by_cases ht : t' = t
  · subst ht
    simp only [if_true, true_and, Option.bind_some]
    rw [find_assign]
    by_cases hf : f' = f
    · subst hf
      simp only [if_true]
      cases find bl t' with
      | none => rfl
      | some i => rfl
    · simp only [if_neg hf]
      cases find bl t' with
      | none => rfl
      | some i => rfl
  · simp only [if_neg ht, ht, false_and, if_false]

/-- Appending port lists to the entry of one tile and function. -/
def appendTo (e : Option (List Pl)) (l : List Pl) : Option (List Pl) := if l = [] then e else some (e.getD [] ++ l)

theorem appendTo_append (e : Option (List Pl)) (a b : List Pl) : appendTo (appendTo e a) b = appendTo e (a ++ b) := by
  unfold appendTo
  by_cases ha : a = [] <;> by_cases hb : b = [] <;> simp [ha, hb]

theorem entry_pushes (ps : List Pl) (bl : BlackList Fn Pl) (t t' : Coord) (f f' : Fn) :
    (ps.foldl (fun bl p => bl.push t f p) bl).entry t' f'
      = if t' = t ∧ f' = f then appendTo (bl.entry t f) ps else bl.entry t' f' := by
  induction ps generalizing bl with
  | nil =>
    simp only [List.foldl_nil, appendTo, if_true]
    by_cases h : t' = t ∧ f' = f
    · rw [if_pos h, h.1, h.2]
    · rw [if_neg h]
  | cons p ps ih =>
    rw [List.foldl_cons, ih]
    by_cases h : t' = t ∧ f' = f
    · rw [if_pos h, if_pos h, entry_push]
      have e : ∀ x : Option (List Pl), appendTo (some (x.getD [] ++ [p])) ps = appendTo x (p :: ps) := by
        intro x
        have := appendTo_append x [p] ps
        simpa [appendTo] using this
      simp only [and_self, if_true]
      exact e _
    · rw [if_neg h, if_neg h, entry_push, if_neg h]

/-- The port lists of the compromised gates of a list. -/
def hitPorts (l : Lay) (aff : List CellPos) (ports : Gate X Y SidbType → Option (List Pl)) (t : Coord)
    (gs : List (Gate X Y SidbType)) : List Pl := (gs.filter (hit l aff t)).flatMap (fun g => (ports g).getD [])

theorem analyzeGate_entry (l : Lay) (aff : List CellPos) (ports : Gate X Y SidbType → Option (List Pl)) (t : Coord) (f : Fn)
    (gs : List (Gate X Y SidbType)) (hp : ∀ g ∈ gs, ports g ≠ none) (bl : BlackList Fn Pl) :
    ∃ out, analyzeGate l aff ports t bl (f, gs) = some out ∧ ∀ t' f', out.entry t' f' =
      if t' = t ∧ f' = f then appendTo (bl.entry t f) (hitPorts l aff ports t gs) else bl.entry t' f' := by
  unfold analyzeGate
  dsimp only
  induction gs generalizing bl with
  | nil =>
    refine ⟨bl, rfl, fun t' f' => ?_⟩
    by_cases h : t' = t ∧ f' = f
    · rw [if_pos h, h.1, h.2]; rfl
    · rw [if_neg h]
  | cons g gs ih =>
    have ihh := ih (fun g hg => hp g (List.mem_cons_of_mem _ hg))
    rw [List.foldlM_cons]
    by_cases hh : hit l aff t g = true
    · obtain ⟨ps, hps⟩ := Option.ne_none_iff_exists'.1 (hp g (by simp))
      simp only [if_pos hh, hps, Option.map_some]
      obtain ⟨out, ho, he⟩ := ihh (ps.foldl (fun bl p => bl.push t f p) bl)
      refine ⟨out, ho, fun t' f' => ?_⟩
      rw [he, entry_pushes, entry_pushes]
      by_cases h : t' = t ∧ f' = f
      · rw [if_pos h, if_pos h, if_pos ⟨rfl, rfl⟩, appendTo_append]
        congr 1
        simp [hitPorts, List.filter_cons, hh, hps]
      · simp only [if_neg h]
    · simp only [if_neg hh]
      obtain ⟨out, ho, he⟩ := ihh bl
      refine ⟨out, ho, fun t' f' => ?_⟩
      rw [he]
      have : hitPorts l aff ports t (g :: gs) = hitPorts l aff ports t gs := by
        simp [hitPorts, List.filter_cons, hh]
      rw [this]

theorem tile_entry (l : Lay) (aff : List CellPos) (ports : Gate X Y SidbType → Option (List Pl)) (t : Coord)
    (impls : List (Fn × List (Gate X Y SidbType))) (hp : ∀ it ∈ impls, ∀ g ∈ it.2, ports g ≠ none)
    (hnd : (impls.map (·.1)).Nodup) (bl : BlackList Fn Pl) :
    ∃ out, impls.foldlM (analyzeGate l aff ports t) bl = some out ∧ ∀ t' f', out.entry t' f' =
      if t' = t then appendTo (bl.entry t f') (hitPorts l aff ports t ((find impls f').getD [])) else bl.entry t' f' := by
  induction impls generalizing bl with
  | nil =>
    refine ⟨bl, rfl, fun t' f' => ?_⟩
    by_cases h : t' = t
    · rw [if_pos h, h]; rfl
    · rw [if_neg h]
  | cons it impls ih =>
    obtain ⟨f, gs⟩ := it
    rw [List.map_cons, List.nodup_cons] at hnd
    obtain ⟨o1, h1, e1⟩ := analyzeGate_entry l aff ports t f gs (hp (f, gs) (by simp)) bl
    obtain ⟨out, ho, he⟩ := ih (fun it hit => hp it (List.mem_cons_of_mem _ hit)) hnd.2 o1
    refine ⟨out, by rw [List.foldlM_cons, h1]; exact ho, fun t' f' => ?_⟩
    rw [he]
    by_cases ht : t' = t
    · subst ht
      rw [if_pos rfl, if_pos rfl, e1, find_cons]
      by_cases hf : f' = f
      · subst hf
        have hno : find impls f' = none := by
          by_contra hc
          exact hnd.1 ((mem_keys_iff impls f').2 (Option.isSome_iff_ne_none.2 hc))
        simp only [hno, and_self, if_true, Option.getD_none, Option.getD_some]
        simp [hitPorts, appendTo]
      · have hf' : ¬ f = f' := fun e => hf e.symm
        simp [hf, hf']
    · simp only [if_neg ht, e1, ht, false_and, if_false]

theorem mem_tiles (m : Dim) (t : Coord) : t ∈ tiles m ↔ t.d = false ∧ t.x ≤ m.X ∧ t.y ≤ m.Y ∧ t.z ≤ m.Z := by
  unfold tiles
  simp only [List.mem_flatMap, List.mem_map, List.mem_range]
  constructor
  · rintro ⟨z, hz, y, hy, x, hx, rfl⟩; exact ⟨rfl, Nat.lt_succ_iff.1 hx, Nat.lt_succ_iff.1 hy, Nat.lt_succ_iff.1 hz⟩
  · rintro ⟨hd, h1, h2, h3⟩
    refine ⟨t.z, by omega, t.y, by omega, t.x, by omega, ?_⟩
    rw [← hd]

theorem nodup_tiles (m : Dim) : (tiles m).Nodup := by
  unfold tiles
  rw [List.nodup_flatMap]
  refine ⟨fun z _ => ?_, ?_⟩
  · rw [List.nodup_flatMap]
    refine ⟨fun y _ => ?_, ?_⟩
    · refine List.Nodup.map (fun a b h => ?_) List.nodup_range
      exact (Coord.mk.inj h).1
    · refine List.Pairwise.imp ?_ List.nodup_range
      intro a b hab
      simp only [Function.onFun, List.disjoint_left, List.mem_map]
      rintro t ⟨x, -, rfl⟩ ⟨x', -, e⟩
      exact hab (Coord.mk.inj e).2.1.symm
  · refine List.Pairwise.imp ?_ List.nodup_range
    intro a b hab
    simp only [Function.onFun, List.disjoint_left, List.mem_flatMap, List.mem_map]
    rintro t ⟨y, -, x, -, rfl⟩ ⟨y', -, x', -, e⟩
    exact hab (Coord.mk.inj e).2.2.1.symm

theorem tiles_entry (l : Lay) (aff : List CellPos) (ports : Gate X Y SidbType → Option (List Pl))
    (impls : List (Fn × List (Gate X Y SidbType))) (hp : ∀ it ∈ impls, ∀ g ∈ it.2, ports g ≠ none)
    (hnd : (impls.map (·.1)).Nodup) (ts : List Coord) (hts : ts.Nodup) (bl : BlackList Fn Pl) :
    ∃ out, ts.foldlM (fun bl t => impls.foldlM (analyzeGate l aff ports t) bl) bl = some out ∧ ∀ t f, out.entry t f =
      if t ∈ ts then appendTo (bl.entry t f) (hitPorts l aff ports t ((find impls f).getD [])) else bl.entry t f := by
  induction ts generalizing bl with
  | nil => exact ⟨bl, rfl, fun t f => by simp⟩
  | cons a ts ih =>
    rw [List.nodup_cons] at hts
    obtain ⟨o1, h1, e1⟩ := tile_entry l aff ports a impls hp hnd bl
    obtain ⟨out, ho, he⟩ := ih hts.2 o1
    refine ⟨out, by rw [List.foldlM_cons, h1]; exact ho, fun t f => ?_⟩
    rw [he, e1]
    by_cases ht : t = a
    · subst ht
      simp [hts.1]
    · simp [ht]

end
end Verif.Defects
