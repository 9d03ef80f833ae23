import Verif.Io.FglSpec
import Verif.TruthTables.Props
import Verif.PhysicalDesign.OrthoSem
import Verif.PhysicalDesign.HexaBuild
import Mathlib.Tactic.IntervalCases

/-!
# Lemmas on FGL files
-/
namespace Verif.Fgl

open Verif.Layouts Verif.Clocking Verif.GateLevel Verif.TruthTables

/-! ## Hexadecimal tables -/

theorem hexVal_digit (k : Nat) (h : k < 16) : hexVal (Nat.digitChar k) = some k ∧ isSpace (Nat.digitChar k) = false := by
  have : ∀ k < 16, hexVal (Nat.digitChar k) = some k ∧ isSpace (Nat.digitChar k) = false := by decide +kernel
  exact this k h

theorem hexDigits_length : ∀ d w, (hexDigits d w).length = d
  | 0, _ => rfl
  | d + 1, w => by rw [hexDigits, List.length_append, hexDigits_length d]; rfl

theorem hexDigits_mem : ∀ d w c, c ∈ hexDigits d w → ∃ k < 16, c = Nat.digitChar k
  | 0, _, _, h => by simp [hexDigits] at h
  | d + 1, w, c, h => by
    rw [hexDigits, List.mem_append, List.mem_singleton] at h
    rcases h with h | h
    · exact hexDigits_mem d _ c h
    · exact ⟨w % 16, Nat.mod_lt _ (by omega), h⟩

theorem hexDigits_value : ∀ d w, (hexDigits d w).foldl (fun a c => 16 * a + (hexVal c).getD 0) 0 = w % 16 ^ d
  | 0, w => by rw [hexDigits]; simp [Nat.mod_one]
  | d + 1, w => by
    rw [hexDigits, List.foldl_append, hexDigits_value d, List.foldl_cons, List.foldl_nil,
      (hexVal_digit (w % 16) (Nat.mod_lt _ (by omega))).1, Option.getD_some, Nat.pow_succ, Nat.mul_comm (16 ^ d) 16, Nat.mod_mul]
    omega

theorem numDigits_pow (v : Nat) : 2 ^ 2 ^ v ≤ 16 ^ numDigits v := by
  unfold numDigits
  split_ifs with h
  · have : v = 0 ∨ v = 1 := by omega
    rcases this with rfl | rfl <;> decide
  · obtain ⟨u, rfl⟩ : ∃ u, v = u + 2 := ⟨v - 2, by omega⟩
    rw [show (16 : Nat) = 2 ^ 4 from rfl, ← Nat.pow_mul, Nat.add_sub_cancel, Nat.pow_add]
    exact Nat.pow_le_pow_right (by omega) (by omega)

theorem numDigits_pos (v : Nat) : 0 < numDigits v := by
  unfold numDigits
  split_ifs
  · omega
  · exact Nat.pow_pos (by omega)

theorem fromHex_toHex (t : TT) (h : t.word < 2 ^ 2 ^ t.vars) : fromHex t.vars (toHex t) = some t := by
  unfold fromHex toHex
  rw [if_pos (hexDigits_length _ _), hexDigits_value, Nat.mod_eq_of_lt (Nat.lt_of_lt_of_le h (numDigits_pow _)), Nat.mod_eq_of_lt h]

theorem isHex_toHex (t : TT) : isHex (toHex t) = true := by
  unfold isHex
  rw [List.all_eq_true]
  intro c hc
  obtain ⟨k, hk, rfl⟩ := hexDigits_mem _ _ _ hc
  rw [(hexVal_digit k hk).1]
  rfl

theorem blank_toHex (t : TT) : blank (toHex t) = false := by
  have hl : (toHex t).length = numDigits t.vars := hexDigits_length _ _
  have := numDigits_pos t.vars
  match h : toHex t with
  | [] => rw [h] at hl; simp at hl; omega
  | c :: l =>
    obtain ⟨k, hk, e⟩ := hexDigits_mem (numDigits t.vars) t.word c (by show c ∈ toHex t; rw [h]; simp)
    unfold blank
    rw [List.all_cons, e, (hexVal_digit k hk).2]
    rfl

/-- The names of gates that are no hexadecimal numbers. -/
def keywords : List (List Char) :=
  ["PI", "PO", "BUF", "INV", "AND", "NAND", "OR", "NOR", "XOR", "XNOR", "LT", "LE", "GT", "GE", "MAJ"].map String.toList

theorem keywords_hex : ∀ s ∈ keywords, isHex s = false ∧ blank s = false := by decide +kernel

theorem hex_ne {s : List Char} (h : isHex s = true) (k : String) (hk : k.toList ∈ keywords) : s ≠ k.toList := by
  rintro rfl
  rw [(keywords_hex _ hk).1] at h
  cases h

/-! ## The cache -/

theorem layoutCache_eq : layoutCache = [⟨0, 0⟩, ⟨1, 2⟩, ⟨2, 8⟩, ⟨2, 14⟩, ⟨2, 2⟩, ⟨2, 4⟩, ⟨2, 6⟩, ⟨3, 0xe8⟩] := by decide +kernel

theorem insert_prefix (c : Cache) (t : TT) : c <+: (c.insert t).1 := by
  unfold Cache.insert
  split
  · obtain ⟨s, h⟩ := (findOrAppend_spec c t.compl).2
    exact ⟨s, h.symm⟩
  · obtain ⟨s, h⟩ := (findOrAppend_spec c t).2
    exact ⟨s, h.symm⟩

theorem lookup_prefix {c c' : Cache} (h : c <+: c') {lit : Nat} {u : TT} (hu : c.lookup lit = some u) : c'.lookup lit = some u := by
  obtain ⟨s, rfl⟩ := h
  simp only [Cache.lookup, Option.map_eq_some_iff] at hu ⊢
  obtain ⟨v, hv, rfl⟩ := hu
  obtain ⟨hlt, hv'⟩ := List.getElem?_eq_some_iff.1 hv
  exact ⟨v, by rw [List.getElem?_append_left hlt, hv], rfl⟩

theorem lookup_layout {c : Cache} (h : layoutCache <+: c) {lit : Nat} (hl : lit < 16) : c.lookup lit = layoutCache.lookup lit := by
  have : ∀ lit < 16, (layoutCache.lookup lit).isSome = true := by decide +kernel
  obtain ⟨u, hu⟩ := Option.isSome_iff_exists.1 (this lit hl)
  rw [hu]
  exact lookup_prefix h hu

/-- The arity of the functions every layout has. -/
theorem layout_vars : ∀ lit < 16, (layoutCache.lookup lit).map TT.vars =
    some (if lit < 2 then 0 else if lit < 4 then 1 else if lit < 14 then 2 else 3) := by decide +kernel

theorem insert_maj {c : Cache} (h : layoutCache <+: c) {u : TT} (hu : layoutCache.lookup 15 = some u) : (c.insert u).2 = 15 := by
  obtain ⟨s, rfl⟩ := h
  have : u = ⟨3, 0x17⟩ := by
    have e : layoutCache.lookup 15 = some ⟨3, 0x17⟩ := by decide +kernel
    rw [e] at hu
    exact (Option.some.inj hu).symm
  subst this
  rw [layoutCache_eq]
  rfl

/-! ## Placing one gate -/

/-- The tile that is written of a placed node. -/
theorem plain_eq {t : Coord} (h : t.d = false) : plain t = t := by
  cases t
  simp only at h
  subst h
  rfl

theorem map_plain {l : List Coord} (h : ∀ c ∈ l, c.d = false) : l.map plain = l := by
  conv_rhs => rw [← List.map_id l]
  exact List.map_congr_left fun c hc => plain_eq (h c hc)

theorem place_custom {R : Lyt} {r : Rec} (hh : isHex r.type = true) {l : List Coord} (hl : r.incoming.map (signal R) = l) (hn : l ≠ []) :
    place R r = R.custom r.type l r.loc := by
  have ne := fun k hk => hex_ne hh k hk
  unfold place
  simp only [hl]
  match l, hn with
  | [a], _ =>
    simp only
    rw [if_neg (ne "PO" (by decide)), if_neg (ne "BUF" (by decide)), if_neg (ne "INV" (by decide))]
  | [a, b], _ =>
    simp only
    rw [if_neg (ne "AND" (by decide)), if_neg (ne "NAND" (by decide)), if_neg (ne "OR" (by decide)), if_neg (ne "NOR" (by decide)),
      if_neg (ne "XOR" (by decide)), if_neg (ne "XNOR" (by decide)), if_neg (ne "LT" (by decide)), if_neg (ne "LE" (by decide)),
      if_neg (ne "GT" (by decide)), if_neg (ne "GE" (by decide))]
  | [a, b, c], _ =>
    simp only
    rw [if_neg (ne "MAJ" (by decide))]
  | a :: b :: c :: d :: l, _ => rfl

/-- Writing and reading the function of a gate. -/
theorem place_gate {L R : Lyt} {n : Nat} {r : Rec} {cs : List Coord} {f : TT} (hcL : layoutCache <+: L.cache) (hcR : layoutCache <+: R.cache)
    (hf : L.cache.lookup (L.st.nodes n).fn = some f) (hw : f.word < 2 ^ 2 ^ f.vars) (hv : cs.length = f.vars) (h1 : 1 ≤ f.vars)
    (hpo : L.st.isPo n = false) (hty : r.type = typeOf L n cs.length) (hin : r.incoming.map (signal R) = cs) :
    ∃ lit cache, place R r = some { R with st := R.st.createGate R.dim lit cs r.loc, cache := cache } ∧ cache.lookup lit = some f ∧
      ((L.st.nodes n).fn < 16 → lit = (L.st.nodes n).fn) ∧ R.cache <+: cache := by
  have hex : r.type = toHex f → ((L.st.nodes n).fn < 16 → (L.st.nodes n).fn = 15) → ∃ lit cache, place R r =
      some { R with st := R.st.createGate R.dim lit cs r.loc, cache := cache } ∧ cache.lookup lit = some f ∧
      ((L.st.nodes n).fn < 16 → lit = (L.st.nodes n).fn) ∧ R.cache <+: cache := by
    intro ht h15
    have hp := place_custom (R := R) (r := r) (by rw [ht]; exact isHex_toHex f) hin (by intro hc; rw [hc] at hv; simp at hv; omega)
    refine ⟨(R.cache.insert f).2, (R.cache.insert f).1, ?_, (C30_create_node_function R.cache f hw).1, ?_, insert_prefix _ _⟩
    · rw [hp]
      unfold Lyt.custom
      rw [ht, if_pos (isHex_toHex f), hv, fromHex_toHex f hw]
      rfl
    · intro hlt
      have := h15 hlt
      rw [this] at hf ⊢
      rw [lookup_layout hcL (by omega)] at hf
      exact insert_maj hcR hf
  have hexOf_eq : hexOf L n = toHex f := by unfold hexOf; rw [hf]
  by_cases hlt : (L.st.nodes n).fn < 16
  · have hlk := lookup_layout hcL hlt
    have hvars := layout_vars _ hlt
    rw [← hlk, hf, Option.map_some, Option.some.injEq] at hvars
    have hlkR := (lookup_layout hcR hlt).trans (hlk.symm.trans hf)
    have done : place R r = some (R.gate (L.st.nodes n).fn cs r.loc) → ∃ lit cache, place R r =
        some { R with st := R.st.createGate R.dim lit cs r.loc, cache := cache } ∧ cache.lookup lit = some f ∧
        ((L.st.nodes n).fn < 16 → lit = (L.st.nodes n).fn) ∧ R.cache <+: cache :=
      fun h => ⟨_, R.cache, h, hlkR, fun _ => rfl, List.prefix_refl _⟩
    by_cases h15 : (L.st.nodes n).fn = 15
    · refine hex ?_ (fun _ => h15)
      rw [hty, typeOf, hv, hvars, h15]
      simpa using hexOf_eq
    · apply done
      clear done hex hf hlk hlkR hexOf_eq
      unfold place
      rw [hin, hty]
      unfold typeOf
      rw [hpo]
      generalize (L.st.nodes n).fn = fn at *
      have h2 : 2 ≤ fn := by
        by_contra hc
        rw [if_pos (by omega)] at hvars
        omega
      interval_cases fn
      all_goals
        first
        | (exfalso; exact h15 rfl)
        | (simp at hvars
           rw [hvars] at hv
           match cs, hv with
           | [a], h => first | (simp at h; done) | simp
           | [a, b], h => first | (simp at h; done) | simp
           | [a, b, c], h => first | (simp at h; done) | simp)
  · refine hex ?_ (fun hc => absurd hc hlt)
    rw [hty, ← hexOf_eq, typeOf, hpo]
    have ne : ∀ k, k < 16 → (L.st.nodes n).fn ≠ k := fun k hk hc => hlt (hc ▸ hk)
    rw [if_neg (show ¬ (false = true) by decide), if_neg (ne 2 (by omega)), if_neg (ne 3 (by omega)), if_neg (ne 4 (by omega)), if_neg (ne 5 (by omega)),
      if_neg (ne 6 (by omega)), if_neg (ne 7 (by omega)), if_neg (ne 12 (by omega)), if_neg (ne 13 (by omega)), if_neg (ne 8 (by omega)),
      if_neg (ne 10 (by omega)), if_neg (ne 11 (by omega)), if_neg (ne 9 (by omega)), if_neg (ne 14 (by omega))]
    simp only [ite_self]

end Verif.Fgl
