import Verif.Io.SqdParse
import Mathlib.Data.List.Induction

/-!
# The layout that reading an SQD file leaves behind
-/
namespace Verif.Sqd

open Verif.Coordinates Verif.Cells Verif.Defects

section
variable {C : Type} [DecidableEq C] (K : Kind C)

/-- All positions of a file. -/
def positions (parts : List (Part C)) : List C :=
  parts.flatMap fun p => p.dots.map (·.1) ++ p.defects.flatMap (·.1)

theorem foldl_putDot (l : List (C × SidbType)) (L : Lay C) : l.foldl (putDot K) L =
    ⟨l.foldl (fun s p => s.assignCellType p.1 p.2) L.cells, L.defects, (l.map (·.1)).foldl K.widen L.dim⟩ := by
  induction l generalizing L with
  | nil => rfl
  | cons p l ih =>
    rw [List.foldl_cons, ih]
    rfl

theorem foldl_putDefect (l : List (List C × Defect)) (L : Lay C) : l.foldl (putDefect K) L =
    ⟨L.cells, (l.flatMap fun q => q.1.map fun c => (c, q.2)).foldl (fun s p => s.assign p.1 p.2) L.defects,
      (l.flatMap (·.1)).foldl K.widen L.dim⟩ := by
  induction l generalizing L with
  | nil => rfl
  | cons p l ih =>
    rw [List.foldl_cons, ih, List.flatMap_cons, List.flatMap_cons, List.foldl_append, List.foldl_append]
    unfold putDefect
    dsimp only
    congr 2
    rw [List.foldl_map]

theorem foldl_putPart (parts : List (Part C)) (L : Lay C) : parts.foldl (putPart K) L =
    ⟨(allDots parts).foldl (fun s p => s.assignCellType p.1 p.2) L.cells,
      (allDefects parts).foldl (fun s p => s.assign p.1 p.2) L.defects, (positions parts).foldl K.widen L.dim⟩ := by
  induction parts generalizing L with
  | nil => rfl
  | cons p l ih =>
    rw [List.foldl_cons, ih]
    unfold allDots allDefects positions
    rw [List.flatMap_cons, List.flatMap_cons, List.flatMap_cons, List.foldl_append, List.foldl_append, List.foldl_append,
      List.foldl_append]
    unfold putPart
    rw [foldl_putDot, foldl_putDefect]

theorem lastOf_snoc {V : Type} (l : List (C × V)) (p : C × V) (c : C) :
    lastOf (l ++ [p]) c = if p.1 = c then some p.2 else lastOf l c := by
  unfold lastOf
  rw [List.reverse_append, List.reverse_singleton, List.singleton_append, find_cons]

theorem types_foldl (l : List (C × SidbType)) (s : State C sidb) (c : C) :
    (l.foldl (fun s p => s.assignCellType p.1 p.2) s).getCellType c = (lastOf l c).getD (s.getCellType c) := by
  induction l using List.reverseRecOn with
  | nil => rfl
  | append_singleton l p ih =>
    rw [List.foldl_append, List.foldl_cons, List.foldl_nil, getCellType_assign sidb_lawful, lastOf_snoc, ih]
    by_cases h : p.1 = c
    · rw [if_pos h, if_pos h.symm]; rfl
    · rw [if_neg h, if_neg (fun e => h e.symm)]

theorem inv_foldl (l : List (C × SidbType)) {s : State C sidb} (h : Inv s) :
    Inv (l.foldl (fun s p => s.assignCellType p.1 p.2) s) := by
  induction l generalizing s with
  | nil => exact h
  | cons p l ih => exact ih (inv_type sidb_lawful h _ _)

theorem names_foldl (l : List (C × SidbType)) (s : State C sidb) (c : C) :
    (l.foldl (fun s p => s.assignCellType p.1 p.2) s).getCellName c = s.getCellName c := by
  induction l generalizing s with
  | nil => rfl
  | cons p l ih => rw [List.foldl_cons, ih, getCellName_assignType]

/-- What becomes of a defect that is assigned to a surface. -/
def stored (ignore : List DefectType) (d : Defect) : Defect := if d.type = .none ∨ d.type ∈ ignore then Defect.ofType .none else d

theorem get_assign (s : Surface C) (c k : C) (d : Defect) :
    (s.assign c d).get k = if c = k then stored s.ignore d else s.get k := by
  rw [get_eq, find_assign', get_eq]
  unfold stored
  by_cases h : c = k
  · subst h
    simp only [if_true]
    by_cases h1 : d.type = .none
    · simp [h1]
    · by_cases h2 : d.type ∈ s.ignore <;> simp [h1, h2]
  · rw [if_neg h, if_neg (fun e => h e.symm)]

theorem assign_ignore (s : Surface C) (c : C) (d : Defect) : (s.assign c d).ignore = s.ignore := by
  unfold Surface.assign
  dsimp only
  split_ifs <;> rfl

theorem defects_foldl (l : List (C × Defect)) (s : Surface C) (c : C) :
    (l.foldl (fun s p => s.assign p.1 p.2) s).get c = ((lastOf l c).map (stored s.ignore)).getD (s.get c) ∧
      (l.foldl (fun s p => s.assign p.1 p.2) s).ignore = s.ignore := by
  induction l using List.reverseRecOn with
  | nil => exact ⟨rfl, rfl⟩
  | append_singleton l p ih =>
    rw [List.foldl_append, List.foldl_cons, List.foldl_nil, get_assign, lastOf_snoc, ih.1, ih.2, assign_ignore, ih.2]
    refine ⟨?_, rfl⟩
    by_cases h : p.1 = c
    · rw [if_pos h, if_pos h]; rfl
    · rw [if_neg h, if_neg h]

/-- A coordinate that the bounding box of the reader follows. -/
structure Measures (f : C → Int) : Prop where
  start : f K.start = 0
  widen : ∀ b c, f (K.widen b c) = max (f b) (f c)
  fit : ∀ b, f (K.fit b) = f b

omit [DecidableEq C] in
theorem largest_foldl {f : C → Int} (h : Measures K f) (l : List C) : Largest f l (f (l.foldl K.widen K.start)) := by
  induction l using List.reverseRecOn with
  | nil => exact ⟨.inl h.start, by rw [List.foldl_nil, h.start], by simp⟩
  | append_singleton l a ih =>
    obtain ⟨h1, h2, h3⟩ := ih
    rw [List.foldl_append, List.foldl_cons, List.foldl_nil, h.widen]
    refine ⟨?_, by omega, ?_⟩
    · by_cases hle : f (l.foldl K.widen K.start) ≤ f a
      · rw [max_eq_right hle]
        exact .inr ⟨a, by simp, rfl⟩
      · rw [max_eq_left (by omega)]
        rcases h1 with h1 | ⟨c, hc, e⟩
        · exact .inl h1
        · exact .inr ⟨c, by simp [hc], e⟩
    · intro c hc
      rw [List.mem_append, List.mem_singleton] at hc
      rcases hc with hc | rfl
      · have := h3 c hc; omega
      · omega

theorem measures_siqad : Measures siqadKind (fun c => c.x) ∧ Measures siqadKind (fun c => c.y) :=
  ⟨⟨rfl, fun _ _ => rfl, fun _ => rfl⟩, ⟨rfl, fun _ _ => rfl, fun _ => rfl⟩⟩

theorem measures_cube : Measures cubeKind (fun c => c.x) ∧ Measures cubeKind (fun c => c.y) :=
  ⟨⟨rfl, fun _ _ => rfl, fun _ => rfl⟩, ⟨rfl, fun _ _ => rfl, fun _ => rfl⟩⟩

theorem widen_bits (a b : BitVec 31) : ((if b > a then b else a).toNat : Int) = max (a.toNat : Int) (b.toNat : Int) := by
  by_cases h : b > a
  · rw [if_pos h]
    have : a.toNat < b.toNat := h
    omega
  · rw [if_neg h]
    have : ¬ a.toNat < b.toNat := h
    omega

theorem measures_offset : Measures offsetKind (fun c => c.x.toNat) ∧ Measures offsetKind (fun c => c.y.toNat) :=
  ⟨⟨rfl, fun _ _ => widen_bits _ _, fun _ => rfl⟩, ⟨rfl, fun _ _ => widen_bits _ _, fun _ => rfl⟩⟩

/-! ## What the writer writes -/

variable (F : Dbl) (o : Orient) (iface : Bool)

/-- Printing and reading a position yields the position. -/
def Kept (c : C) : Prop :=
  (∀ i ∈ [(K.put c).1, (K.put c).2.1, (K.put c).2.2], -2 ^ 63 ≤ i ∧ i < 2 ^ 63) ∧
    K.get (K.put c).1 (K.put c).2.1 (K.put c).2.2 = .ok c

omit [DecidableEq C] in
theorem position_latcoord {c : C} (h : Kept K c) : Position K (latcoord (K.put c)) c := by
  obtain ⟨hr, hg⟩ := h
  refine ⟨showInt (K.put c).1, showInt (K.put c).2.1, showInt (K.put c).2.2, ?_, ?_, ?_, _, _, _,
    show_text _ (hr _ (by simp)).1 (hr _ (by simp)).2, show_text _ (hr _ (by simp)).1 (hr _ (by simp)).2,
    show_text _ (hr _ (by simp)).1 (hr _ (by simp)).2, hg⟩ <;>
  simp [latcoord, Xml.attr, find]

theorem writeDot_is {s : State C sidb} {c : C} (h : Kept K c) (ht : s.getCellType c ≠ .empty) :
    IsDot K (writeDot K s c) (c, s.getCellType c) := by
  refine ⟨⟨latcoord (K.put c), ?_, position_latcoord K h⟩, ?_⟩
  · simp [writeDot, Xml.first, Xml.children, leaf, Xml.tag, latcoord]
  · dsimp only
    cases hs : s.getCellType c with
    | empty => exact absurd hs ht
    | normal =>
      refine .inl ⟨?_, rfl⟩
      simp [writeDot, Xml.first, Xml.children, leaf, Xml.tag, latcoord, hs, dotType]
    | input =>
      refine .inr ⟨leaf "type" "input", "input".toList, ?_, rfl, .inl ⟨rfl, rfl⟩⟩
      simp [writeDot, Xml.first, Xml.children, leaf, Xml.tag, latcoord, hs, dotType]
    | output =>
      refine .inr ⟨leaf "type" "output", "output".toList, ?_, rfl, .inr (.inl ⟨rfl, rfl⟩)⟩
      simp [writeDot, Xml.first, Xml.children, leaf, Xml.tag, latcoord, hs, dotType]
    | logic =>
      refine .inr ⟨leaf "type" "logic", "logic".toList, ?_, rfl, .inr (.inr (.inr ⟨rfl, rfl⟩))⟩
      simp [writeDot, Xml.first, Xml.children, leaf, Xml.tag, latcoord, hs, dotType]

/-- A defect that the format can express: its type has a name, its charge fits into 64 bits, and it has electrical parameters
only if they are written. -/
def Expressible (d : Defect) : Prop :=
  d.type ≠ .arsenic ∧ -2 ^ 63 ≤ d.charge ∧ d.charge < 2 ^ 63 ∧ (d.isChargedType = false → d.epsilonR = 0 ∧ d.lambdaTf = 0)

theorem typeName_label (t : DefectType) (h : t ≠ .arsenic) : LabelWord t (typeName t) := by
  rw [← parseLabel_iff]
  cases t <;> first | exact absurd rfl h | decide +kernel

omit [DecidableEq C] in
theorem writeDefect_is (hF : ∀ r, F.get (F.put r) = some r) {p : C × Defect} (h : Kept K p.1) (hd : Expressible p.2) :
    IsDefect K F (writeDefect K F p) ([p.1], p.2) := by
  obtain ⟨h1, h2, h3, h4⟩ := hd
  refine ⟨.inr ⟨.node "incl_coords".toList [] none [latcoord (K.put p.1)], ?_, by simp, ?_⟩, .inr ⟨.node "val".toList [] (some (typeName p.2.type)) [], typeName p.2.type, ?_, rfl, typeName_label _ h1⟩, ?_⟩
  · simp [writeDefect, Xml.first, Xml.children, leaf, Xml.tag]
  · have : Xml.all (.node "incl_coords".toList [] none [latcoord (K.put p.1)]) "latcoord".toList = [latcoord (K.put p.1)] := by
      simp [Xml.all, Xml.children, latcoord, Xml.tag]
    rw [this]
    exact .cons (position_latcoord K h) .nil
  · unfold label writeDefect coulomb
    by_cases hc : p.2.isChargedType = true
    · simp [Xml.first, Xml.children, leaf, Xml.tag, hc]
    · simp [Xml.first, Xml.children, leaf, Xml.tag, hc]
  · unfold writeDefect coulomb
    by_cases hc : p.2.isChargedType = true
    · refine .inr ⟨.node "coulomb".toList [("charge".toList, showInt p.2.charge), ("eps_r".toList, F.put p.2.epsilonR),
        ("lambda_tf".toList, F.put p.2.lambdaTf)] none [], showInt p.2.charge, F.put p.2.epsilonR, F.put p.2.lambdaTf,
        ?_, ?_, ?_, ?_, show_text _ h2 h3, hF _, hF _⟩
      · simp [Xml.first, Xml.children, leaf, Xml.tag, hc]
      · simp [Xml.attr, find]
      · simp [Xml.attr, find]
      · simp [Xml.attr, find]
    · have hc' : p.2.isChargedType = false := by simpa using hc
      refine .inl ⟨?_, ?_, h4 hc'⟩
      · simp [Xml.first, Xml.children, leaf, Xml.tag, hc']
      · unfold Defect.isChargedType at hc'
        simp only [Bool.or_eq_false_iff, bne_eq_false_iff_eq] at hc'
        exact hc'.1.1.1

/-- The parts of a written file. -/
def partsOf (L : Lay C) : List (Part C) :=
  [⟨[], []⟩, ⟨[], []⟩, ⟨L.cells.cells.map fun c => (c, L.cells.getCellType c), []⟩] ++
    (if iface then [⟨[], L.defects.visited.map fun p => ([p.1], p.2)⟩] else []) ++ [⟨[], []⟩]

theorem other_holds (t : String) (h1 : t.toList ≠ "DB".toList) (h2 : t.toList ≠ "Defects".toList) :
    Holds K F iface (layer t []) ⟨[], []⟩ :=
  ⟨t.toList, by simp [layer, Xml.attr, find], .inr (.inr ⟨.inr ⟨h1, h2⟩, rfl, rfl⟩)⟩

theorem latVec_oriented : Oriented o (latVec o) := by
  unfold Oriented
  cases o with
  | si100 =>
    have : (Xml.first (latVec .si100) "name".toList).bind Xml.text = some "Si(100) 2x1".toList := by
      simp [latVec, Xml.first, Xml.children, leaf, Xml.tag, Xml.text]
    rw [this]
    exact .inl ⟨rfl, rfl⟩
  | si111 =>
    have : (Xml.first (latVec .si111) "name".toList).bind Xml.text = some "Si(111) 1x1".toList := by
      simp [latVec, Xml.first, Xml.children, leaf, Xml.tag, Xml.text]
    rw [this]
    exact .inr ⟨rfl, rfl⟩

theorem write_describes (hF : ∀ r, F.get (F.put r) = some r) (program : List Xml) {L : Lay C} (hi : Inv L.cells)
    (hc : ∀ c, L.cells.getCellType c ≠ .empty → Kept K c) (hd : ∀ p ∈ L.defects.defects, Kept K p.1 ∧ Expressible p.2) :
    Describes K F o iface (some [write K F o iface program L]) (partsOf iface L) := by
  have hdots : Holds K F iface (layer "DB" (L.cells.cells.map (writeDot K L.cells)))
      ⟨L.cells.cells.map fun c => (c, L.cells.getCellType c), []⟩ := by
    refine ⟨"DB".toList, by simp [layer, Xml.attr, find], .inl ⟨rfl, ?_, rfl⟩⟩
    have : (layer "DB" (L.cells.cells.map (writeDot K L.cells))).all "dbdot".toList = L.cells.cells.map (writeDot K L.cells) := by
      unfold Xml.all layer Xml.children
      rw [List.filter_eq_self]
      intro x hx
      obtain ⟨c, -, rfl⟩ := List.mem_map.1 hx
      simp [writeDot, Xml.tag]
    rw [this, List.forall₂_map_left_iff, List.forall₂_map_right_iff, List.forall₂_same]
    intro c hcm
    have hne := (mem_cells hi c).1 hcm
    exact writeDot_is K (hc c hne) hne
  have hdefs : iface = true → Holds K F iface (layer "Defects" (L.defects.visited.map (writeDefect K F)))
      ⟨[], L.defects.visited.map fun p => ([p.1], p.2)⟩ := by
    intro hif
    refine ⟨"Defects".toList, by simp [layer, Xml.attr, find], .inr (.inl ⟨rfl, hif, rfl, ?_⟩)⟩
    have : (layer "Defects" (L.defects.visited.map (writeDefect K F))).all "defect".toList = L.defects.visited.map (writeDefect K F) := by
      unfold Xml.all layer Xml.children
      rw [List.filter_eq_self]
      intro x hx
      obtain ⟨c, -, rfl⟩ := List.mem_map.1 hx
      simp [writeDefect, Xml.tag]
    rw [this, List.forall₂_map_left_iff, List.forall₂_map_right_iff, List.forall₂_same]
    intro p hp
    exact writeDefect_is K F hF (hd p hp).1 (hd p hp).2
  refine ⟨_, write K F o iface program L, layers o iface, layerProp "Lattice" "Lattice" [leaf "role" "Design"] "0" "0" "1" [latVec o],
    latVec o, .node "design".toList [] none
        ([layer "Lattice" [], layer "Misc" [], layer "DB" (L.cells.cells.map (writeDot K L.cells))] ++
          (if iface then [layer "Defects" (L.defects.visited.map (writeDefect K F))] else []) ++ [layer "Electrode" []]),
    rfl, ?_, ?_, ?_, ?_, latVec_oriented o, ?_, ?_⟩
  · simp [write, Xml.tag]
  · simp [write, Xml.tag, Xml.first, Xml.children, layers]
  · simp [layers, layerProp, Xml.tag, Xml.first, Xml.children]
  · cases o <;> simp [layerProp, latVec, leaf, Xml.tag, Xml.first, Xml.children]
  · simp [write, Xml.tag, Xml.first, Xml.children, layers]
  · have : ∀ l : List Xml, (∀ x ∈ l, x.tag = "layer".toList) → (Xml.node "design".toList [] none l).all "layer".toList = l := by
      intro l hl
      unfold Xml.all Xml.children
      rw [List.filter_eq_self]
      exact fun x hx => decide_eq_true (hl x hx)
    have hlay : ∀ t l, (layer t l).tag = "layer".toList := fun _ _ => rfl
    rw [this _ (by
      intro x hx
      simp only [List.mem_append, List.mem_cons, List.not_mem_nil, or_false] at hx
      rcases hx with ((rfl | rfl | rfl) | hx) | rfl
      · exact hlay _ _
      · exact hlay _ _
      · exact hlay _ _
      · split_ifs at hx
        · rw [List.mem_singleton] at hx
          subst hx
          exact hlay _ _
        · cases hx
      · exact hlay _ _)]
    have h1 : List.Forall₂ (Holds K F iface) [layer "Lattice" [], layer "Misc" [], layer "DB" (L.cells.cells.map (writeDot K L.cells))]
        [⟨[], []⟩, ⟨[], []⟩, ⟨L.cells.cells.map fun c => (c, L.cells.getCellType c), []⟩] :=
      .cons (other_holds K F iface _ (by decide +kernel) (by decide +kernel))
        (.cons (other_holds K F iface _ (by decide +kernel) (by decide +kernel)) (.cons hdots .nil))
    have h2 : List.Forall₂ (Holds K F iface) (if iface then [layer "Defects" (L.defects.visited.map (writeDefect K F))] else [])
        (if iface then [⟨[], L.defects.visited.map fun p => ([p.1], p.2)⟩] else []) := by
      split_ifs with hif
      · exact .cons (hdefs hif) .nil
      · exact .nil
    have h3 : List.Forall₂ (Holds K F iface) [layer "Electrode" []] [⟨[], []⟩] :=
      .cons (other_holds K F iface _ (by decide +kernel) (by decide +kernel)) .nil
    exact List.rel_append (List.rel_append h1 h2) h3

theorem partsOf_dots (L : Lay C) : allDots (partsOf iface L) = L.cells.cells.map fun c => (c, L.cells.getCellType c) := by
  unfold allDots partsOf
  cases iface <;> simp

theorem partsOf_defects (L : Lay C) (h : iface = false → L.defects.defects = []) : allDefects (partsOf iface L) = L.defects.defects := by
  unfold allDefects partsOf
  cases hi : iface with
  | false => simp [h hi]
  | true =>
    simp [List.flatMap_map, Surface.visited]

theorem partsOf_positions (L : Lay C) (h : iface = false → L.defects.defects = []) :
    positions (partsOf iface L) = L.cells.cells ++ L.defects.visited.map (·.1) := by
  unfold positions partsOf
  cases hi : iface with
  | false => simp [h hi, Surface.visited, Function.comp_def]
  | true =>
    have : ∀ l : List (C × Defect), l.flatMap (fun p => [p.1]) = l.map (·.1) := by
      intro l
      induction l with
      | nil => rfl
      | cons a l ih => rw [List.flatMap_cons, ih]; rfl
    simp [List.flatMap_map, Surface.visited, Function.comp_def, this]

theorem lastOf_nodup {V : Type} {l : List (C × V)} (h : (l.map (·.1)).Nodup) (c : C) : lastOf l c = find l c := by
  unfold lastOf
  apply Option.ext
  intro v
  rw [find_iff h, find_iff (by rw [List.map_reverse]; exact List.nodup_reverse.2 h), List.mem_reverse]

end
end Verif.Sqd
