import Verif.Defects.AnalysisFacts

/-!
# C83: positions affected by defects, and the black list of gates
-/
namespace Verif.Defects

open Verif.Cells Verif.Library Verif.Layouts

/-! ## Specification -/

/-- A surface as users obtain it: a new one, after any operations. -/
def Reachable (s : Surface CellPos) : Prop := ∃ ignore ops, s = (Surface.new ignore).run ops

/-- Distances that fit the type `uint16_t`. -/
def Small (o : Option (Nat × Nat)) : Prop := ∀ p, o = some p → p.1 < 65536 ∧ p.2 < 65536

/-- The horizontal and the vertical reach of a defect: 26 and 13 for charged types, 1 and 0 for the others, unless the caller
overrides them. A type is charged if the defect has a charge or is a dangling bond, a silicon vacancy or an arsenic atom. -/
def reach (d : Defect) (charged neutral : Option (Nat × Nat)) : Nat × Nat :=
  if d.charge ≠ 0 ∨ d.type = .db ∨ d.type = .siVacancy ∨ d.type = .arsenic then charged.getD (26, 13)
  else neutral.getD (1, 0)

/-- Position `p` of the surface is within the reach of the defect at `c`: at most so many columns and rows away from it, in
the same layer. -/
def InReach (s : Surface CellPos) (charged neutral : Option (Nat × Nat)) (c p : CellPos) : Prop :=
  (s.get c).type ≠ .none ∧
    ((p.1 : Int) - c.1).natAbs ≤ (reach (s.get c) charged neutral).1 ∧
    ((p.2.1 : Int) - c.2.1).natAbs ≤ (reach (s.get c) charged neutral).2 ∧ p.2.2 = c.2.2

/-- The position is on a surface of that aspect ratio. -/
def OnSurface (m : Dim) (p : CellPos) : Prop := p.1 ≤ m.X ∧ p.2.1 ≤ m.Y ∧ p.2.2 ≤ m.Z

/-- Some SiDB of gate `g`, placed on tile `t`, lies on the surface and within the reach of some defect. -/
def Compromised {X Y : Nat} (l : Lay) (m : Dim) (s : Surface CellPos) (charged neutral : Option (Nat × Nat)) (t : Coord)
    (g : Gate X Y SidbType) : Prop :=
  ∃ (y : Fin Y) (x : Fin X), g y x ≠ .empty ∧ OnSurface m (relToAbs l X Y t (x.val, y.val)) ∧
    ∃ c, InReach s charged neutral c (relToAbs l X Y t (x.val, y.val))

/-! ## C83 -/

theorem reachable_ok {s : Surface CellPos} (h : Reachable s) : Ok s := by
  obtain ⟨i, ops, rfl⟩ := h; exact (ok_run (ok_new i) ops).1

theorem extent_eq_reach (d : Defect) (hd : d.type ≠ .none) (co no : Option (Nat × Nat)) : extent d co no = reach d co no := by
  have hch : d.isChargedType = true ↔ (d.charge ≠ 0 ∨ d.type = .db ∨ d.type = .siVacancy ∨ d.type = .arsenic) := by
    simp [Defect.isChargedType, or_assoc]
  unfold extent reach
  by_cases h : d.isChargedType = true
  · rw [if_pos h, if_pos (hch.1 h)]
    cases co <;> rfl
  · have hne : d.isNeutralType = true := by
      unfold Defect.isNeutralType
      rw [Bool.and_eq_true]
      exact ⟨by simpa using hd, by simpa using h⟩
    rw [if_neg h, if_neg (fun e => h (hch.2 e)), if_pos hne]
    cases no <;> rfl

theorem near_iff (s : Surface CellPos) (c p : CellPos) (co no : Option (Nat × Nat)) :
    ((s.get c).type ≠ .none ∧ Near c (extent (s.get c) co no) p) ↔ InReach s co no c p := by
  unfold InReach Near
  constructor
  · rintro ⟨hd, h⟩
    rw [extent_eq_reach _ hd] at h
    exact ⟨hd, by omega, by omega, h.2.2.2.2⟩
  · rintro ⟨hd, h1, h2, h3⟩
    rw [extent_eq_reach _ hd]
    exact ⟨hd, by omega, by omega, by omega, by omega, h3⟩

theorem within_iff (m : Dim) (p : CellPos) : within m p = true ↔ OnSurface m p := by
  simp [within, OnSurface, and_assoc]

/-- **C83** `affected_sidbs` returns exactly the positions of the surface within the reach of the defect at the given
coordinate, each once; none if that coordinate is intact. -/
theorem C83_affected (m : Dim) (s : Surface CellPos) (hs : Reachable s) (hf : Fits m s) (charged neutral : Option (Nat × Nat))
    (hc : Small charged) (hn : Small neutral) (c : CellPos) :
    ∃ l, affected m s c charged neutral = some l ∧ l.Nodup ∧
      ∀ p, p ∈ l ↔ InReach s charged neutral c p ∧ OnSurface m p := by
  obtain ⟨l, hl, hnd, hm⟩ := affected_spec m s hf (reachable_ok hs) c charged neutral hc hn
  refine ⟨l, hl, hnd, fun p => ?_⟩
  rw [hm, ← within_iff, ← near_iff, and_assoc]

/-- **C83** (for distances that fit 16 bits). `all_affected_sidbs` returns exactly the positions of the surface within the
reach of some defect, each once. Missing: larger distances, see `C83_false_narrow`. -/
theorem C83_all_partial (m : Dim) (s : Surface CellPos) (hs : Reachable s) (hf : Fits m s) (charged neutral : Option (Nat × Nat))
    (hc : Small charged) (hn : Small neutral) :
    ∃ l, allAffected m s charged neutral = some l ∧ l.Nodup ∧
      ∀ p, p ∈ l ↔ OnSurface m p ∧ ∃ c, InReach s charged neutral c p := by
  have hok := reachable_ok hs
  unfold allAffected
  rw [narrow_id charged hc, narrow_id neutral hn]
  obtain ⟨out, ho, hnd, hm⟩ := foldlM_insert (fun p : CellPos × Defect => affected m s p.1 charged neutral) s.visited []
    List.nodup_nil (fun a _ => by
      obtain ⟨l, hl, _⟩ := affected_spec m s hf hok a.1 charged neutral hc hn
      exact ⟨l, hl⟩)
  refine ⟨out, ho, hnd, fun p => ?_⟩
  rw [hm]
  simp only [List.not_mem_nil, false_or]
  constructor
  · rintro ⟨a, -, r, hr, hp⟩
    obtain ⟨l, hl, -, hml⟩ := C83_affected m s hs hf charged neutral hc hn a.1
    rw [hl] at hr
    cases hr
    have := (hml p).1 hp
    exact ⟨this.2, a.1, this.1⟩
  · rintro ⟨hp, c, hr⟩
    obtain ⟨d, hfd⟩ := Option.ne_none_iff_exists'.1 ((get_type hok c).1 hr.1)
    obtain ⟨l, hl, -, hml⟩ := C83_affected m s hs hf charged neutral hc hn c
    exact ⟨(c, d), find_mem hfd, l, hl, (hml p).2 ⟨hr, hp⟩⟩

section
variable {X Y : Nat} {Fn Pl : Type} [DecidableEq Fn]

theorem hit_iff (l : Lay) (m : Dim) (s : Surface CellPos) (charged neutral : Option (Nat × Nat)) (aff : List CellPos)
    (haff : ∀ p, p ∈ aff ↔ OnSurface m p ∧ ∃ c, InReach s charged neutral c p) (t : Coord) (g : Gate X Y SidbType) :
    hit l aff t g = true ↔ Compromised l m s charged neutral t g := by
  unfold hit Compromised
  simp only [List.any_eq_true, List.mem_finRange, true_and, Bool.and_eq_true, bne_iff_ne, ne_eq, decide_eq_true_eq, haff]

open Classical in
/-- **C83** What the black list holds for a tile and a function: the port lists of the compromised implementations of the
function, in their order. There is an entry only if there is such a port list, and only for tiles of the layout. -/
theorem C83_entries_partial (l : Lay) (gm m : Dim) (s : Surface CellPos) (hs : Reachable s) (hf : Fits m s)
    (impls : List (Fn × List (Gate X Y SidbType))) (hnd : (impls.map (·.1)).Nodup)
    (ports : Gate X Y SidbType → Option (List Pl)) (hp : ∀ it ∈ impls, ∀ g ∈ it.2, ports g ≠ none)
    (charged neutral : Option (Nat × Nat)) (hc : Small charged) (hn : Small neutral) :
    ∃ bl, analysis l gm m s impls ports charged neutral = some bl ∧ ∀ t f,
      bl.entry t f =
        let ps := (((find impls f).getD []).filter (fun g => decide (Compromised l m s charged neutral t g))).flatMap
          (fun g => (ports g).getD [])
        if t ∈ tiles gm ∧ ps ≠ [] then some ps else none := by
  obtain ⟨aff, ha, -, hm⟩ := C83_all_partial m s hs hf charged neutral hc hn
  unfold analysis
  rw [ha]
  obtain ⟨bl, hb, he⟩ := tiles_entry l aff ports impls hp hnd (tiles gm) (nodup_tiles gm) []
  refine ⟨bl, hb, fun t f => ?_⟩
  have hfil : ∀ gs : List (Gate X Y SidbType), gs.filter (hit l aff t)
      = gs.filter (fun g => decide (Compromised l m s charged neutral t g)) := by
    intro gs
    refine List.filter_congr (fun g _ => ?_)
    have := hit_iff l m s charged neutral aff hm t g
    by_cases h : Compromised l m s charged neutral t g
    · simp [h, this.2 h]
    · simp only [h, decide_false]
      by_contra hc
      exact h (this.1 (by simpa using hc))
  rw [he]
  have hnil : (BlackList.entry ([] : BlackList Fn Pl) t f) = none := rfl
  unfold hitPorts
  rw [hfil, hnil]
  dsimp only
  unfold appendTo
  by_cases ht : t ∈ tiles gm
  · simp only [ht, if_true, true_and, Option.getD_none, List.nil_append]
    split_ifs <;> first | rfl | (rename_i h1 h2; exact absurd h1 h2)
  · simp [ht]

/-- **C83** (for distances that fit 16 bits). `sidb_surface_analysis` lists a port list for a function on a tile if and only
if the tile belongs to the layout and some implementation of the function with that port list would have an SiDB within the
reach of some defect there. -/
theorem C83_blacklist_partial (l : Lay) (gm m : Dim) (s : Surface CellPos) (hs : Reachable s) (hf : Fits m s)
    (impls : List (Fn × List (Gate X Y SidbType))) (hnd : (impls.map (·.1)).Nodup)
    (ports : Gate X Y SidbType → Option (List Pl)) (hp : ∀ it ∈ impls, ∀ g ∈ it.2, ports g ≠ none)
    (charged neutral : Option (Nat × Nat)) (hc : Small charged) (hn : Small neutral) :
    ∃ bl, analysis l gm m s impls ports charged neutral = some bl ∧ ∀ t f p,
      p ∈ (bl.entry t f).getD [] ↔
        (t.d = false ∧ t.x ≤ gm.X ∧ t.y ≤ gm.Y ∧ t.z ≤ gm.Z) ∧
        ∃ gs g ps, (f, gs) ∈ impls ∧ g ∈ gs ∧ Compromised l m s charged neutral t g ∧ ports g = some ps ∧ p ∈ ps := by
  classical
  obtain ⟨bl, hb, he⟩ := C83_entries_partial l gm m s hs hf impls hnd ports hp charged neutral hc hn
  refine ⟨bl, hb, fun t f p => ?_⟩
  have hget : ∀ gs, (f, gs) ∈ impls → find impls f = some gs := by
    intro gs hm
    have hss : (find impls f).isSome := (mem_keys_iff _ f).1 (List.mem_map.2 ⟨_, hm, rfl⟩)
    obtain ⟨e, hee⟩ := Option.isSome_iff_exists.1 hss
    have hmem : (f, e) ∈ impls := by
      unfold find at hee
      obtain ⟨q, hq, rfl⟩ := Option.map_eq_some_iff.1 hee
      have h1 := List.find?_some hq
      simp only [decide_eq_true_eq] at h1
      rw [← h1]
      exact List.mem_of_find?_eq_some hq
    have := List.inj_on_of_nodup_map hnd hmem hm rfl
    rw [hee, (Prod.mk.inj this).2]
  have hfindmem : ∀ gs, find impls f = some gs → (f, gs) ∈ impls := by
    intro gs hfs
    unfold find at hfs
    obtain ⟨q, hq, rfl⟩ := Option.map_eq_some_iff.1 hfs
    have h1 := List.find?_some hq
    simp only [decide_eq_true_eq] at h1
    rw [← h1]
    exact List.mem_of_find?_eq_some hq
  rw [he, ← mem_tiles]
  dsimp only
  constructor
  · intro hmem
    split_ifs at hmem with hcond
    · refine ⟨hcond.1, ?_⟩
      simp only [Option.getD_some, List.mem_flatMap, List.mem_filter, decide_eq_true_eq] at hmem
      obtain ⟨g, ⟨hg, hcomp⟩, hpp⟩ := hmem
      cases hfi : find impls f with
      | none => rw [hfi] at hg; simp at hg
      | some gs =>
        rw [hfi] at hg
        cases hpg : ports g with
        | none => rw [hpg] at hpp; simp at hpp
        | some ps =>
          rw [hpg] at hpp
          exact ⟨gs, g, ps, hfindmem gs hfi, hg, hcomp, hpg, hpp⟩
    · simp at hmem
  · rintro ⟨ht, gs, g, ps, hgs, hg, hcomp, hpg, hpp⟩
    have hin : p ∈ (((find impls f).getD []).filter (fun g => decide (Compromised l m s charged neutral t g))).flatMap
        (fun g => (ports g).getD []) := by
      simp only [List.mem_flatMap, List.mem_filter, decide_eq_true_eq]
      exact ⟨g, ⟨by rw [hget gs hgs]; exact hg, hcomp⟩, by rw [hpg]; exact hpp⟩
    rw [if_pos ⟨ht, List.ne_nil_of_mem hin⟩]
    exact hin

/-- **C83** The black list is safe: a gate one of whose port lists is not listed for its function on a tile of the layout has,
on that tile, no SiDB on the surface within the reach of any defect. -/
theorem C83_safe_partial (l : Lay) (gm m : Dim) (s : Surface CellPos) (hs : Reachable s) (hf : Fits m s)
    (impls : List (Fn × List (Gate X Y SidbType))) (hnd : (impls.map (·.1)).Nodup)
    (ports : Gate X Y SidbType → Option (List Pl)) (hp : ∀ it ∈ impls, ∀ g ∈ it.2, ports g ≠ none)
    (charged neutral : Option (Nat × Nat)) (hc : Small charged) (hn : Small neutral) :
    ∃ bl, analysis l gm m s impls ports charged neutral = some bl ∧ ∀ t f gs g ps p, t ∈ tiles gm → (f, gs) ∈ impls → g ∈ gs →
      ports g = some ps → p ∈ ps → p ∉ (bl.entry t f).getD [] →
      ∀ (y : Fin Y) (x : Fin X), g y x ≠ .empty → OnSurface m (relToAbs l X Y t (x.val, y.val)) →
        ∀ c, ¬ InReach s charged neutral c (relToAbs l X Y t (x.val, y.val)) := by
  obtain ⟨bl, hb, he⟩ := C83_blacklist_partial l gm m s hs hf impls hnd ports hp charged neutral hc hn
  refine ⟨bl, hb, fun t f gs g ps p ht hgs hg hpg hpp hno y x hne hon c hr => hno ?_⟩
  exact (he t f p).2 ⟨(mem_tiles gm t).1 ht, gs, g, ps, hgs, hg, ⟨y, x, hne, hon, c, hr⟩, hpg, hpp⟩

end

/-! ## Where the code departs from it -/

/-- A surface with a siloxane defect at `(5, 0)`. -/
def oneDefect : Surface CellPos := (Surface.new []).run [.assign (5, 0, 0) sil]

/-- **C83 is false for distances of 65536 and more**: `all_affected_sidbs` accepts 64-bit distances and passes them on as
16-bit ones. With a distance of 65536 columns, the neighbors of the defect are not reported. -/
theorem C83_false_narrow :
    Reachable oneDefect ∧ Fits ⟨10, 0, 0⟩ oneDefect ∧ InReach oneDefect none (some (65536, 0)) (5, 0, 0) (6, 0, 0) ∧
    OnSurface ⟨10, 0, 0⟩ (6, 0, 0) ∧
    allAffected ⟨10, 0, 0⟩ oneDefect none (some (65536, 0)) = some [(5, 0, 0)] := by
  refine ⟨⟨[], _, rfl⟩, ⟨by decide, by decide, by decide⟩, ⟨by decide +kernel, ?_, ?_, rfl⟩, ⟨by decide, by decide, by decide⟩, ?_⟩
  · decide +kernel
  · decide +kernel
  · decide +kernel

/-- A surface with a siloxane defect in its corner. -/
def cornerDefect : Surface CellPos := (Surface.new []).run [.assign (0, 0, 0) sil]

/-- On a surface with `2^31` columns, the fields wrap around: the last column is reported as affected by a defect in column 0.
This is why `Fits` is required. -/
theorem C83_false_wrap :
    affected ⟨2147483647, 0, 0⟩ cornerDefect (0, 0, 0) none none = some [(1, 0, 0), (0, 0, 0), (2147483647, 0, 0)] := by
  decide +kernel

/-! ## The hypotheses hold in concrete cases -/

/-- Two gates of 2 × 2 cells. -/
def g1 : Gate 2 2 SidbType := fun y x => if y = 0 ∧ x = 0 then .normal else .empty
def g2 : Gate 2 2 SidbType := fun y x => if y = 1 ∧ x = 1 then .normal else .empty
def demoImpls : List (Nat × List (Gate 2 2 SidbType)) := [(8, [g1, g2]), (6, [g2])]
def demoPorts (g : Gate 2 2 SidbType) : Option (List String) := if g 0 0 = .empty then some ["b"] else some ["a"]

/-- A defect at `(2, 0)` on a surface of 4 × 2 cells and two tiles: on both tiles, `g1` is compromised or `g2` is. -/
def demoSurface : Surface CellPos := (Surface.new []).run [.assign (2, 0, 0) sil]

example : Reachable demoSurface ∧ Fits ⟨3, 1, 0⟩ demoSurface ∧ (demoImpls.map (·.1)).Nodup ∧
    (∀ it ∈ demoImpls, ∀ g ∈ it.2, demoPorts g ≠ none) ∧
    ((analysis .cartesian ⟨1, 0, 0⟩ ⟨3, 1, 0⟩ demoSurface demoImpls demoPorts none none).map
      (fun bl => (bl.entry ⟨1, 0, 0, false⟩ 8, bl.entry ⟨1, 0, 0, false⟩ 6, bl.entry ⟨0, 0, 0, false⟩ 8))
        = some (some ["a"], none, none)) := by
  refine ⟨⟨[], _, rfl⟩, ⟨by decide, by decide, by decide⟩, by decide, ?_, by decide +kernel⟩
  intro it _ g _
  unfold demoPorts
  split_ifs <;> simp

end Verif.Defects
