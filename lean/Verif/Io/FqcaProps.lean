import Verif.Io.FqcaLemmas

/-!
# C70: writing and reading FQCA files
-/
namespace Verif.Io

open Verif.Cells

theorem mem_allPos (L : Lyt) (p : Pos) : p ∈ allPos L (List.range (L.dim.z + 1)) ↔ L.Within p := by
  obtain ⟨x, y, z⟩ := p
  simp only [allPos, rowOf, List.mem_flatMap, List.mem_map, List.mem_range, Pos.mk.injEq, Lyt.Within]
  constructor
  · rintro ⟨z', hz, y', hy, x', hx, rfl, rfl, rfl⟩; omega
  · intro h; exact ⟨z, by omega, y, by omega, x, by omega, rfl, rfl, rfl⟩

theorem special_iff (L : Lyt) (p : Pos) (h : L.Within p) : L.special p = true ↔ L.Special p := by
  simp only [Lyt.special, Lyt.labelled, Lyt.Special, Lyt.Present, Bool.and_eq_true, decide_eq_true_eq, h, true_and]

theorem allPos_nodup (L : Lyt) : (allPos L (List.range (L.dim.z + 1))).Nodup := by
  unfold allPos
  rw [List.nodup_flatMap]
  refine ⟨fun z _ => ?_, ?_⟩
  · rw [List.nodup_flatMap]
    refine ⟨fun y _ => ?_, ?_⟩
    · exact List.Nodup.map (fun a b h => by simpa using h) List.nodup_range
    · refine List.nodup_range.imp ?_
      intro a b hab p hp hq
      simp only [rowOf, List.mem_map] at hp hq
      obtain ⟨x, _, rfl⟩ := hp
      obtain ⟨x', _, e⟩ := hq
      simp only [Pos.mk.injEq] at e
      exact hab e.2.1.symm
  · refine List.nodup_range.imp ?_
    intro a b hab p hp hq
    simp only [rowOf, List.mem_map, List.mem_flatMap] at hp hq
    obtain ⟨y, _, x, _, rfl⟩ := hp
    obtain ⟨y', _, x', _, e⟩ := hq
    simp only [Pos.mk.injEq] at e
    exact hab e.2.2.symm

/-- Writing fails, for lack of designators, if and only if more than 52 cells have a name or are primary inputs or
outputs. -/
theorem C70_designators (gen : List Char) (L : Lyt) (via : Bool) (ps : List Pos) (hn : ps.Nodup)
    (hps : ∀ p, p ∈ ps ↔ L.Special p) : write gen L via = none ↔ 52 < ps.length := by
  have hu := writeLayers_used L via (List.range (L.dim.z + 1)) alphabet
  have hnd := allPos_nodup L
  have hperm : (ps : List Pos).Perm ((allPos L (List.range (L.dim.z + 1))).filter L.special) := by
    rw [List.perm_ext_iff_of_nodup hn (hnd.filter _)]
    intro p
    rw [hps, List.mem_filter, mem_allPos]
    constructor
    · intro h; exact ⟨h.1.1, (special_iff L p h.1.1).2 h⟩
    · rintro ⟨h1, h2⟩; exact (special_iff L p h1).1 h2
  rw [hperm.length_eq]
  unfold write
  rw [Option.map_eq_none_iff]
  have h52 : alphabet.length = 52 := rfl
  cases h : writeLayers L via (List.range (L.dim.z + 1)) alphabet with
  | none => rw [h] at hu; simp only [Used, h52] at hu; simpa using hu
  | some r => rw [h] at hu; simp only [Used, h52] at hu; simp; omega

theorem hdr_comment (l : List Char) : isComment (strip ("[ ".toList ++ l ++ " ]".toList)) = true := by
  have e : strip ("[ ".toList ++ l ++ " ]".toList) = '[' :: (strip l ++ [']']) := by
    unfold strip; rw [List.filter_append, List.filter_append]; rfl
  rw [e]
  simp only [isComment, decide_eq_true_eq]
  refine ⟨by simp, rfl, ?_⟩
  rw [← List.cons_append, List.getLast?_concat]

/-- What is known about the states before and after reading the definitions `ls`, where `ts` are the cells. -/
structure Parsed (L : Lyt) (ts ls : List (Pos × Char)) (s1 s3 : Reader) : Prop where
  tok : ∀ t ∈ ts, Tok L ls t.1 t.2
  cells : ∀ p, p ∈ ts.map Prod.fst ↔ L.Within p
  letters : ∀ t ∈ ls, t.2 ∈ alphabet
  special : ∀ p, p ∈ ls.map Prod.fst ↔ L.Special p
  rows : Eff .init s1 ts
  defs : EffDef L s1 s3 ls

theorem parsed (gen : List Char) (hgen : '\n' ∉ gen) (L : Lyt) (hw : L.Writable) (text : List Char)
    (h : write gen L false = some text) :
    ∃ ts ls s1 s3, parseLines 1 (splitLines text) .init = .ok s3 ∧ Parsed L ts ls s1 s3 := by
  unfold write at h
  rw [Option.map_eq_some_iff] at h
  obtain ⟨⟨o, ls, a'⟩, h1, h2⟩ := h
  have hcl : ∀ p ∈ allPos L (List.range (L.dim.z + 1)), L.clock p < 10 := fun p hp => hw.clocks p ((mem_allPos L p).1 hp)
  obtain ⟨tsss, hpos, ho, htok, halpha, hls⟩ := writeLayers_spec hcl h1
  -- designators
  have hsub : ∀ t ∈ ls, t.2 ∈ alphabet := by
    intro t ht; rw [halpha]; exact List.mem_append.2 (.inl (List.mem_map_of_mem ht))
  have hnds : (ls.map Prod.snd).Nodup := by
    have := alphabet_nodup; rw [halpha] at this; exact (List.nodup_append.1 this).1
  have hcells : tsss.flatten.flatten.map Prod.fst = allPos L (List.range (L.dim.z + 1)) := by
    rw [List.map_flatten, List.map_flatten]
    have := congrArg (fun l => l.flatten.flatten) hpos
    rw [show (List.map (List.map (List.map Prod.fst)) tsss).flatten.flatten = _ from this]
    simp only [allPos, List.flatMap_def, List.flatten_flatten, List.map_map]
    congr 1
  have htok' : ∀ t ∈ tsss.flatten.flatten, Tok L ls t.1 t.2 := by
    intro t ht
    obtain ⟨ts, hts, ht⟩ := List.mem_flatten.1 ht
    obtain ⟨tss, htss, hts⟩ := List.mem_flatten.1 hts
    exact htok tss htss ts hts t ht
  have hwithin : ∀ t ∈ tsss.flatten.flatten, L.Within t.1 := fun t ht =>
    (mem_allPos L _).1 (by rw [← hcells]; exact List.mem_map_of_mem ht)
  have hgood : ∀ t ∈ tsss.flatten.flatten, Good t.2 := by
    intro t ht
    have h := htok' t ht
    have hc := digit_facts _ (hw.clocks t.1 (hwithin t ht))
    unfold Tok at h
    split_ifs at h
    · rw [h]; exact .inl (by decide)
    · exact .inr (.inr (.inl (alphabet_facts _ (hsub _ h)).2.1))
    · rw [h]; exact .inr (.inr (.inr (.inl rfl)))
    · rw [h]; exact .inr (.inr (.inr (.inr rfl)))
    · rw [h]; exact .inr (.inl hc.1)
  have halph : ∀ t ∈ tsss.flatten.flatten, t.2.isAlpha = true → (t.1, t.2) ∈ ls := by
    intro t ht ha
    have h := htok' t ht
    have hc := digit_facts _ (hw.clocks t.1 (hwithin t ht))
    unfold Tok at h
    split_ifs at h
    · rw [h] at ha; exact absurd ha (by decide)
    · exact h
    · rw [h] at ha; exact absurd ha (by decide)
    · rw [h] at ha; exact absurd ha (by decide)
    · rw [h] at ha; rw [alpha_not_digit _ ha] at hc; exact absurd hc.1 (by decide)
  have hnd := allPos_nodup L
  have hapart : tsss.flatten.flatten.Pairwise Apart := by
    have h1 : tsss.flatten.flatten.Pairwise fun t u => t.1 ≠ u.1 := by
      rw [← List.pairwise_map (f := Prod.fst) (R := fun a b => a ≠ b), hcells]; exact hnd
    refine List.Pairwise.imp_of_mem ?_ h1
    intro t u ht hu hne
    refine ⟨hne, fun ha e => hne ?_⟩
    have a := halph t ht ha
    have b := halph u hu (by rw [← e]; exact ha)
    rw [← e] at b
    have := List.inj_on_of_nodup_map hnds a b rfl
    exact (Prod.mk.inj (this : (t.1, t.2) = (u.1, t.2))).1
  -- lines
  have hlines : text = unlines (("[ ".toList ++ ((if L.title = [] then [] else L.title ++ " - ".toList) ++ gen) ++ " ]".toList) ::
      [] :: ((tsss.flatMap fun tss => sepLine L :: tss.map rowText) ++
        (sepLine L :: [] :: [] :: ['$'] :: [] :: ls.flatMap (defLines L)))) := by
    rw [← h2, ho]
    have e1 : header gen L = unlines [("[ ".toList ++ ((if L.title = [] then [] else L.title ++ " - ".toList) ++ gen) ++
        " ]".toList), []] := by simp [header, unlines]
    have e2 : separator L = unlines [sepLine L] := by simp [separator, unlines, sepLine]
    have e3 : "\n\n$\n\n".toList = unlines [[], [], ['$'], []] := rfl
    have e4 : ls.flatMap (writeLabelled L) = unlines (ls.flatMap (defLines L)) := by
      unfold unlines
      rw [List.flatMap_assoc]
      congr 1
      funext t
      exact writeLabelled_lines L t
    rw [e1, e2, e3, e4, ← unlines_append, ← unlines_append, ← unlines_append, ← unlines_append]
    congr 1
    simp
  have hnl : ∀ l ∈ (("[ ".toList ++ ((if L.title = [] then [] else L.title ++ " - ".toList) ++ gen) ++ " ]".toList) ::
      [] :: ((tsss.flatMap fun tss => sepLine L :: tss.map rowText) ++
        (sepLine L :: [] :: [] :: ['$'] :: [] :: ls.flatMap (defLines L)))), '\n' ∉ l := by
    have hsep : '\n' ∉ sepLine L := by
      unfold sepLine
      intro h
      obtain ⟨l, hl, h⟩ := List.mem_flatten.1 h
      rw [List.eq_of_mem_replicate hl] at h
      exact absurd h (by decide)
    intro l hl
    rcases List.mem_cons.1 hl with rfl | hl
    · have := hw.title
      have e1 : '\n' ∉ "[ ".toList := by decide
      have e2 : '\n' ∉ " ]".toList := by decide
      have e3 : '\n' ∉ " - ".toList := by decide
      simp only [List.mem_append, not_or]
      refine ⟨⟨e1, ?_, hgen⟩, e2⟩
      split_ifs
      · simp
      · simp only [List.mem_append, not_or]; exact ⟨this, e3⟩
    · rcases List.mem_cons.1 hl with rfl | hl
      · simp
      · rcases List.mem_append.1 hl with hl | hl
        · obtain ⟨tss, htss, hl⟩ := List.mem_flatMap.1 hl
          rcases List.mem_cons.1 hl with rfl | hl
          · exact hsep
          · obtain ⟨ts, hts, rfl⟩ := List.mem_map.1 hl
            intro h
            obtain ⟨t, ht, h⟩ := List.mem_flatMap.1 h
            have htt : t ∈ tsss.flatten.flatten :=
              List.mem_flatten.2 ⟨ts, List.mem_flatten.2 ⟨tss, htss, hts⟩, ht⟩
            have h := (List.mem_cons.1 h).resolve_right (by decide)
            have hk := htok' t htt
            have hc := digit_facts _ (hw.clocks t.1 (hwithin t htt))
            unfold Tok at hk
            rw [← h] at hk
            split_ifs at hk
            · exact absurd hk (by decide)
            · exact (alphabet_facts _ (hsub _ hk)).2.2.2.2.1 rfl
            · exact absurd hk (by decide)
            · exact absurd hk (by decide)
            · exact hc.2.2.2.1 hk.symm
        · simp only [List.mem_cons] at hl
          rcases hl with rfl | rfl | rfl | rfl | rfl | hl
          · exact hsep
          · simp
          · simp
          · decide
          · simp
          · obtain ⟨t, ht, hl⟩ := List.mem_flatMap.1 hl
            have hp : L.Within t.1 ∧ L.special t.1 = true := by
              have : t.1 ∈ ls.map Prod.fst := List.mem_map_of_mem ht
              rw [hls, List.mem_filter, mem_allPos] at this
              exact this
            have hpr := ((special_iff L t.1 hp.1).1 hp.2).1
            have hname := hw.names t.1 hpr
            have hc := digit_facts _ (hw.clocks t.1 hp.1)
            have ha := (alphabet_facts _ (hsub t ht)).2.2.2.2.1
            unfold defLines at hl
            rw [number_lt (hw.clocks t.1 hp.1)] at hl
            simp only [List.mem_append, List.mem_cons, List.not_mem_nil, or_false] at hl
            rcases hl with (((rfl | hl) | hl) | hl) | rfl | rfl
            · simp [Ne.symm ha]
            · split_ifs at hl
              · rw [List.mem_singleton] at hl; rw [hl]; decide
              · simp at hl
            · split_ifs at hl
              · rw [List.mem_singleton] at hl; rw [hl]; decide
              · simp at hl
            · split_ifs at hl
              · rw [List.mem_singleton] at hl; rw [hl]
                have e1 : '\n' ∉ "- label = \"".toList := by decide
                have e2 : '\n' ∉ ['"'] := by decide
                simp only [List.mem_append, not_or]
                exact ⟨⟨e1, hname⟩, e2⟩
              · simp at hl
            · have e1 : '\n' ∉ "- clock = ".toList := by decide
              simp only [List.mem_append, not_or, List.mem_singleton]
              exact ⟨e1, Ne.symm hc.2.2.2.1⟩
            · simp
  -- reading
  have hgood' : ∀ tss ∈ tsss, ∀ ts ∈ tss, ∀ t ∈ ts, Good t.2 := fun tss htss ts hts t ht =>
    hgood t (List.mem_flatten.2 ⟨ts, List.mem_flatten.2 ⟨tss, htss, hts⟩, ht⟩)
  obtain ⟨s1, hs1, he1, hd1⟩ := parseLines_layers (L := L) tsss 3 0 (L.dim.z + 1) .init hgood'
    (by rw [hpos, List.range_eq_range' (n := L.dim.z + 1)]) hapart rfl rfl
  have hlab : ∀ t ∈ ls, s1.labels t.2 = some t.1 := by
    intro t ht
    have hmem : t.1 ∈ tsss.flatten.flatten.map Prod.fst := by
      rw [hcells]
      have : t.1 ∈ ls.map Prod.fst := List.mem_map_of_mem ht
      rw [hls, List.mem_filter] at this
      exact this.1
    obtain ⟨u, hu, e⟩ := List.mem_map.1 hmem
    have hsp : L.special t.1 = true := by
      have : t.1 ∈ ls.map Prod.fst := List.mem_map_of_mem ht
      rw [hls, List.mem_filter] at this
      exact this.2
    simp only [Lyt.special, Bool.and_eq_true, decide_eq_true_eq] at hsp
    have hk := htok' u hu
    unfold Tok at hk
    rw [e, if_neg hsp.1, if_pos hsp.2] at hk
    have hnf : (ls.map Prod.fst).Nodup := by rw [hls]; exact hnd.filter _
    have hut : t = (t.1, u.2) := List.inj_on_of_nodup_map hnf ht hk rfl
    have hf := alphabet_facts _ (hsub t ht)
    have e2 : t.2 = u.2 := by rw [hut]
    rw [e2, ← e]
    rw [e2] at hf
    exact he1.labels u hu hf.2.2.2.1 hf.1 hf.2.1
  let s2 : Reader := { s1 with row := 0, layer := s1.layer + 1, cellDefs := true }
  have hnf : (ls.map Prod.fst).Nodup := by rw [hls]; exact hnd.filter _
  have hspl : ∀ p, p ∈ ls.map Prod.fst ↔ L.Special p := by
    intro p
    rw [hls, List.mem_filter, mem_allPos]
    constructor
    · rintro ⟨h1, h2⟩; exact (special_iff L p h1).1 h2
    · intro h; exact ⟨h.1.1, (special_iff L p h.1.1).2 h⟩
  obtain ⟨s3, hs3, he3⟩ := parse_defs L ls (3 + (tsss.flatMap fun tss => sepLine L :: tss.map rowText).length + 1 + 1 + 1 + 1 + 1)
    s2 rfl hsub hlab
    (fun t ht => hw.clocks _ ((hspl t.1).1 (List.mem_map_of_mem ht)).1.1) hnf
  have hread : parseLines 1 (splitLines text) .init = .ok s3 := by
    rw [hlines, splitLines_unlines _ hnl]
    rw [parseLines_cons_ok (s' := .init)
      (by
        unfold parseLine
        simp only [hdr_comment, if_true, Reader.init, Bool.false_eq_true, if_false]
        rw [if_neg (by simp)])]
    rw [parseLines_cons_ok (parse_empty _ _), parseLines_append _ _ _ _ _ hs1,
      parseLines_cons_ok (parseLine_sep L _ s1 hd1), parseLines_cons_ok (parse_empty _ _),
      parseLines_cons_ok (parse_empty _ _)]
    rw [parseLines_cons_ok (s' := s2)
      (by
        unfold parseLine
        have e1 : strip ['$'] = ['$'] := rfl
        have e2 : isComment ['$'] = false := rfl
        have e3 : isSeparator ['$'] = false := rfl
        simp only [e1, e2, e3, hd1, Bool.false_eq_true, if_false, if_true, reduceCtorEq]
        rfl)]
    rw [parseLines_cons_ok (parse_empty _ _)]
    exact hs3
  refine ⟨tsss.flatten.flatten, ls, s2, s3, hread, htok', fun p => ?_, hsub, hspl, he1.frame rfl rfl rfl rfl rfl rfl, he3⟩
  rw [hcells, mem_allPos]

/-- What is read from a written file: cells, names, clock numbers and modes are as stated by `ReadBack`. -/
theorem C70_read_write (gen title : List Char) (hgen : '\n' ∉ gen) (L : Lyt) (hw : L.Writable) (text : List Char)
    (h : write gen L false = some text) : ∃ R, read title text = .ok R ∧ R.title = title ∧ ReadBack L R := by
  obtain ⟨ts, ls, s1, s3, hread, htok', hcells, hsub, hspl, he1, he3⟩ := parsed gen hgen L hw text h
  refine ⟨⟨title, s3.mx, s3.ty, s3.mode, s3.name, s3.clock⟩, by unfold read; rw [hread], rfl, ?_⟩
  have hwithin : ∀ t ∈ ts, L.Within t.1 := fun t ht => (hcells _).1 (List.mem_map_of_mem ht)
  -- the token of a position
  have htokAt : ∀ p, L.Within p → ∃ c, (p, c) ∈ ts := by
    intro p hp
    have : p ∈ ts.map Prod.fst := by exact (hcells p).2 hp
    obtain ⟨t, ht, rfl⟩ := List.mem_map.1 this
    exact ⟨t.2, ht⟩
  have hout : ∀ p, ¬ L.Within p → p ∉ ts.map Prod.fst := by
    intro p hp hmem; exact hp ((hcells p).1 hmem)
  have hspace : ∀ t ∈ ts, (isSpace t.2 = true ↔ L.ty t.1 = .empty) := by
    intro t ht
    have hk := htok' t ht
    have hc := digit_facts _ (hw.clocks t.1 (hwithin t ht))
    unfold Tok at hk
    split_ifs at hk with h1 h2 h3 h4
    · simp only [h1, iff_true, hk]; decide
    · simp [h1, (alphabet_facts _ (hsub _ hk)).2.2.2.1]
    · simp only [h1, iff_false, hk]; decide
    · simp only [h1, iff_false, hk]; decide
    · simp only [h1, iff_false, hk, hc.2.1]; decide
  have hpres : ∀ t ∈ ts, (isSpace t.2 = false ↔ L.Present t.1) := by
    intro t ht
    have := hspace t ht
    have hwi := hwithin t ht
    unfold Lyt.Present
    rw [ne_eq, ← this]
    cases hs : isSpace t.2 <;> simp [hwi]
  constructor
  · intro p
    show s3.ty p = _
    by_cases hwi : L.Within p
    · obtain ⟨c, hc⟩ := htokAt p hwi
      have hty1 := he1.ty _ hc
      have hk := htok' _ hc
      have hdig := digit_facts _ (hw.clocks p hwi)
      simp only [Reader.init] at hty1 hk
      by_cases hsp : L.Special p
      · obtain ⟨t, ht, rfl⟩ := List.mem_map.1 ((hspl p).2 hsp)
        have h3 := he3.ty t ht
        rw [h3, if_pos hsp.1]
        have hne : L.ty t.1 ≠ .empty := hsp.1.2
        have hlb : L.labelled t.1 = true := by simpa [Lyt.labelled] using hsp.2
        unfold Tok at hk
        rw [if_neg hne, if_pos hlb] at hk
        have hf := alphabet_facts _ (hsub _ hk)
        have h2 : s1.ty t.1 = .normal := by
          show s1.ty t.1 = _
          rw [hty1]; simp only [eTy, hf.2.2.2.1, hf.2.1, Bool.or_true, if_true, Bool.false_eq_true, if_false]
        rw [h2]
        simp only [hsp, true_and]
        clear hk h2 h3 hty1
        revert hne
        cases L.ty t.1 <;> simp
      · have h3 := (he3.miss p (fun h => hsp ((hspl p).1 h))).1
        rw [h3]
        show s1.ty p = _
        rw [hty1]
        unfold Tok at hk
        by_cases hE : L.ty p = .empty
        · rw [if_pos hE] at hk
          rw [if_neg (fun h => h.2 hE)]
          have : isSpace c = true := by rw [hk]; decide
          simp [eTy, this]
        · have hlb : ¬ L.labelled p = true := by
            intro h; exact hsp ⟨⟨hwi, hE⟩, by simpa [Lyt.labelled] using h⟩
          have hPr : L.Present p := ⟨hwi, hE⟩
          rw [if_neg hE, if_neg hlb] at hk
          rw [if_pos hPr, if_neg (fun h => hsp h.1)]
          by_cases h0 : L.ty p = .const0
          · rw [if_pos h0] at hk; rw [h0, hk]; decide
          · rw [if_neg h0] at hk
            by_cases h1 : L.ty p = .const1
            · rw [if_pos h1] at hk; rw [h1, hk]; decide
            · rw [if_neg h1] at hk
              have hN : L.ty p = .normal := by
                have hlb' : ¬ (L.name p ≠ [] ∨ L.ty p = .input ∨ L.ty p = .output) := by
                  simpa [Lyt.labelled] using hlb
                clear hk
                revert hE h0 h1 hlb'
                cases L.ty p <;> simp
              rw [hN, hk]
              simp [eTy, hdig.2.1, hdig.1]
    · rw [if_neg (fun h => hwi h.1)]
      have h3 := (he3.miss p (fun h => hwi ((hspl p).1 h).1.1)).1
      rw [h3]
      exact (he1.miss p (hout p hwi)).1
  · intro p
    show s3.name p = _
    have hs2 : ∀ q, s1.name q = [] := by intro q; show s1.name q = []; rw [he1.name]; rfl
    by_cases hsp : L.Special p
    · obtain ⟨t, ht, rfl⟩ := List.mem_map.1 ((hspl p).2 hsp)
      rw [he3.name t ht, hs2, if_pos hsp.1]
      by_cases hn : L.name t.1 = []
      · simp [hn]
      · rw [if_pos hn]; rfl
    · rw [(he3.miss p (fun h => hsp ((hspl p).1 h))).2.2, hs2]
      split_ifs with hP
      · have : L.name p = [] := by
          by_contra hne; exact hsp ⟨hP, .inl hne⟩
        rw [this]; rfl
      · rfl
  · intro p
    show s3.clock p = _
    by_cases hsp : L.Special p
    · obtain ⟨t, ht, rfl⟩ := List.mem_map.1 ((hspl p).2 hsp)
      rw [he3.clock t ht, if_pos ⟨hsp.1, .inl hsp⟩]
    · rw [(he3.miss p (fun h => hsp ((hspl p).1 h))).2.1]
      show s1.clock p = _
      by_cases hwi : L.Within p
      · obtain ⟨c, hc⟩ := htokAt p hwi
        have hcl1 := he1.clock _ hc
        have hk := htok' _ hc
        have hdig := digit_facts _ (hw.clocks p hwi)
        simp only [Reader.init] at hcl1 hk
        rw [hcl1]
        unfold Tok at hk
        by_cases hE : L.ty p = .empty
        · rw [if_pos hE] at hk
          rw [if_neg (fun h => h.1.2 hE), hk]; decide
        · have hlb : ¬ L.labelled p = true := by
            intro h; exact hsp ⟨⟨hwi, hE⟩, by simpa [Lyt.labelled] using h⟩
          rw [if_neg hE, if_neg hlb] at hk
          by_cases h0 : L.ty p = .const0
          · rw [if_pos h0] at hk
            rw [if_neg (by rintro ⟨_, h | h⟩; exact hsp h; rw [h0] at h; simp at h), hk]; decide
          · rw [if_neg h0] at hk
            by_cases h1 : L.ty p = .const1
            · rw [if_pos h1] at hk
              rw [if_neg (by rintro ⟨_, h | h⟩; exact hsp h; rw [h1] at h; simp at h), hk]; decide
            · rw [if_neg h1] at hk
              have hN : L.ty p = .normal := by
                have hlb' : ¬ (L.name p ≠ [] ∨ L.ty p = .input ∨ L.ty p = .output) := by
                  simpa [Lyt.labelled] using hlb
                clear hk
                revert hE h0 h1 hlb'
                cases L.ty p <;> simp
              rw [if_pos ⟨⟨hwi, hE⟩, .inr hN⟩, hk]
              simp [eClock, hdig.2.1, hdig.1, toClock, hdig.2.2.1]
      · rw [if_neg (fun h => hwi h.1.1)]
        exact (he1.miss p (hout p hwi)).2.1
  · intro p
    show s3.mode p = _
    rw [he3.rest.1]
    show s1.mode p = _
    by_cases hwi : L.Within p
    · obtain ⟨c, hc⟩ := htokAt p hwi
      have hm1 := he1.mode _ hc
      have hs := hpres _ hc
      simp only [Reader.init] at hm1 hs
      rw [hm1]
      unfold eMode
      by_cases hP : L.Present p
      · rw [hs.2 hP]
        by_cases hz : p.z = 0 <;> simp [hz, hP]
      · have : isSpace c = true := by
          cases h : isSpace c
          · exact absurd (hs.1 h) hP
          · rfl
        simp [this, hP]
    · rw [if_neg (fun h => hwi h.1.1)]
      exact (he1.miss p (hout p hwi)).2.2
  · intro p hP
    show p.x ≤ s3.mx.x ∧ p.y ≤ s3.mx.y ∧ p.z ≤ s3.mx.z
    rw [he3.rest.2.2.1]
    obtain ⟨c, hc⟩ := htokAt p hP.1
    exact he1.inside _ hc ((hpres _ hc).2 hP)
  · show (s3.mx.x = 0 ∨ ∃ p, L.Present p ∧ p.x = s3.mx.x) ∧ (s3.mx.y = 0 ∨ ∃ p, L.Present p ∧ p.y = s3.mx.y) ∧
      (s3.mx.z = 0 ∨ ∃ p, L.Present p ∧ p.z = s3.mx.z)
    rw [he3.rest.2.2.1]
    have := he1.tight
    refine ⟨this.1.imp id ?_, this.2.1.imp id ?_, this.2.2.imp id ?_⟩ <;>
    · rintro ⟨t, ht, hs, e⟩
      exact ⟨t.1, (hpres t ht).1 hs, e⟩

/-- A layout that says nothing the file format cannot express is read back as it was written. -/
theorem C70_roundtrip (gen : List Char) (hgen : '\n' ∉ gen) (L : Lyt) (he : L.Expressible) (text : List Char)
    (h : write gen L false = some text) : read L.title text = .ok L := by
  have hsp : isSpace '\n' = true := by decide
  have hw : L.Writable := by
    refine ⟨he.title, fun p _ hc => ?_, fun p _ => by have := he.clocks p; omega⟩
    have := he.names p _ hc
    rw [hsp] at this; exact absurd this (by decide)
  obtain ⟨R, hr, ht, hb⟩ := C70_read_write gen L.title hgen L hw text h
  rw [hr]
  congr 1
  have hP : ∀ p, L.Present p ↔ L.ty p ≠ .empty := fun p => ⟨fun h => h.2, fun h => ⟨he.within p h, h⟩⟩
  have e1 : R.ty = L.ty := by
    funext p
    rw [hb.ty p]
    by_cases hE : L.ty p = .empty
    · rw [if_neg (fun h => (hP p).1 h hE), hE]
    · rw [if_pos ((hP p).2 hE), if_neg]
      rintro ⟨hs, hc⟩
      have hn := (he.constants p hc).1
      rcases hs.2 with h | h | h
      · exact h hn
      · rw [h] at hc; simp at hc
      · rw [h] at hc; simp at hc
  have e2 : R.name = L.name := by
    funext p
    rw [hb.name p]
    by_cases hE : L.ty p = .empty
    · rw [if_neg (fun h => (hP p).1 h hE), he.emptyNames p hE]
    · rw [if_pos ((hP p).2 hE), List.filter_eq_self]
      intro c hc
      rw [he.names p c hc]; rfl
  have e3 : R.clock = L.clock := by
    funext p
    rw [hb.clock p]
    by_cases hE : L.ty p = .empty
    · rw [if_neg (fun h => (hP p).1 h.1 hE), he.emptyClocks p hE]
    · by_cases hc : L.ty p = .const0 ∨ L.ty p = .const1
      · have hk := he.constants p hc
        rw [hk.2]; split_ifs <;> rfl
      · rw [if_pos, Nat.mod_eq_of_lt (he.clocks p)]
        refine ⟨(hP p).2 hE, ?_⟩
        unfold Lyt.Special
        have := (hP p).2 hE
        revert hE hc
        cases L.ty p <;> simp [this]
  have e4 : R.mode = L.mode := by
    funext p
    rw [hb.mode p, he.modes p]
    simp only [hP]
  have e5 : R.dim = L.dim := by
    have hin := hb.inside
    have ht1 := hb.tight
    have ht2 := he.tight
    have hx : R.dim.x = L.dim.x := by
      refine Nat.le_antisymm ?_ ?_
      · rcases ht1.1 with h | ⟨p, hp, h⟩
        · omega
        · rw [← h]; exact hp.1.1
      · rcases ht2.1 with h | ⟨p, hp, h⟩
        · omega
        · rw [← h]; exact (hin p hp).1
    have hy : R.dim.y = L.dim.y := by
      refine Nat.le_antisymm ?_ ?_
      · rcases ht1.2.1 with h | ⟨p, hp, h⟩
        · omega
        · rw [← h]; exact hp.1.2.1
      · rcases ht2.2.1 with h | ⟨p, hp, h⟩
        · omega
        · rw [← h]; exact (hin p hp).2.1
    have hz : R.dim.z = L.dim.z := by
      refine Nat.le_antisymm ?_ ?_
      · rcases ht1.2.2 with h | ⟨p, hp, h⟩
        · omega
        · rw [← h]; exact hp.1.2.2
      · rcases ht2.2.2 with h | ⟨p, hp, h⟩
        · omega
        · rw [← h]; exact (hin p hp).2.2
    revert hx hy hz
    cases R.dim
    cases L.dim
    rintro rfl rfl rfl
    rfl
  obtain ⟨t, d, ty, m, nm, ck⟩ := R
  obtain ⟨t', d', ty', m', nm', ck'⟩ := L
  simp only at ht e1 e2 e3 e4 e5
  rw [ht, e1, e2, e3, e4, e5]

/-! ## Vias -/

/-- The position in the layout with vias. -/
def up (p : Pos) : Pos := ⟨p.x, p.y, 2 * p.z⟩

theorem withVias_up (L : Lyt) (p : Pos) : L.withVias.ty (up p) = L.ty p ∧ L.withVias.name (up p) = L.name p ∧
    L.withVias.clock (up p) = L.clock p := by
  obtain ⟨x, y, z⟩ := p
  have h1 : 2 * z % 2 = 0 := by omega
  have h2 : 2 * z / 2 = z := by omega
  simp [Lyt.withVias, up]

/-- The same text for other positions. -/
def lift (r : List Char × List (Pos × Char) × List Char) : List Char × List (Pos × Char) × List Char :=
  (r.1, r.2.1.map fun t => (up t.1, t.2), r.2.2)

theorem writeCell_up (L : Lyt) (p : Pos) (a : List Char) :
    writeCell L.withVias (up p) a = (writeCell L p a).map lift := by
  obtain ⟨h1, h2, h3⟩ := withVias_up L p
  unfold writeCell Lyt.labelled
  rw [h1, h2, h3]
  split_ifs
  · rfl
  · cases a <;> rfl
  · rfl
  · rfl
  · rfl

theorem writeCells_up (L : Lyt) : ∀ (l : List Pos) (a : List Char),
    writeCells L.withVias (l.map up) a = (writeCells L l a).map lift
  | [], a => rfl
  | p :: l, a => by
    rw [List.map_cons, writeCells, writeCells, writeCell_up]
    cases h : writeCell L p a with
    | none => rfl
    | some r =>
      obtain ⟨o, ls, a'⟩ := r
      simp only [Option.map_some, lift]
      rw [writeCells_up L l a']
      cases writeCells L l a' <;> simp [lift]

theorem rowOf_up (X y z : Nat) : rowOf X y (2 * z) = (rowOf X y z).map up := by
  simp [rowOf, up]

theorem writeRows_up (L : Lyt) (z : Nat) : ∀ (l : List Nat) (a : List Char),
    writeRows L.withVias (2 * z) l a = (writeRows L z l a).map lift
  | [], a => rfl
  | y :: l, a => by
    have e : L.withVias.dim.x = L.dim.x := rfl
    rw [writeRows, writeRows, e, rowOf_up, writeCells_up]
    cases h : writeCells L (rowOf L.dim.x y z) a with
    | none => rfl
    | some r =>
      obtain ⟨o, ls, a'⟩ := r
      simp only [Option.map_some, lift]
      rw [writeRows_up L z l a']
      cases writeRows L z l a' <;> simp [lift]

theorem writeCells_via (L : Lyt) (y z : Nat) : ∀ (l : List Nat) (a : List Char),
    writeCells L.withVias (l.map fun x : Nat => ⟨x, y, 2 * z + 1⟩) a =
      some ((l.map fun x : Nat => (⟨x, y, z⟩ : Pos)).flatMap (writeVia L), [], a)
  | [], a => rfl
  | x :: l, a => by
    have h1 : (2 * z + 1) % 2 ≠ 0 := by omega
    have h2 : (2 * z + 1) / 2 = z := by omega
    have e : writeCell L.withVias ⟨x, y, 2 * z + 1⟩ a = some (writeVia L ⟨x, y, z⟩, [], a) := by
      unfold writeCell writeVia Lyt.labelled
      simp only [Lyt.withVias, h1, h2, if_false]
      by_cases hm : L.mode ⟨x, y, z⟩ = .vertical <;> simp [hm]
    rw [List.map_cons, writeCells, e]
    simp only
    rw [writeCells_via L y z l a]
    simp

theorem writeRows_via (L : Lyt) (z : Nat) : ∀ (l : List Nat) (a : List Char),
    writeRows L.withVias (2 * z + 1) l a =
      some (l.flatMap fun y => (rowOf L.dim.x y z).flatMap (writeVia L) ++ ['\n'], [], a)
  | [], a => rfl
  | y :: l, a => by
    rw [writeRows]
    have e : writeCells L.withVias (rowOf L.withVias.dim.x y (2 * z + 1)) a =
      some ((rowOf L.dim.x y z).flatMap (writeVia L), [], a) := writeCells_via L y z (List.range (L.dim.x + 1)) a
    rw [e]
    simp only
    rw [writeRows_via L z l a]
    simp

theorem writeLayers_via (L : Lyt) : ∀ (k z : Nat) (a : List Char), z + k = L.dim.z →
    writeLayers L.withVias false (List.range' (2 * z) (2 * k + 1)) a =
      (writeLayers L true (List.range' z (k + 1)) a).map lift
  | 0, z, a, hz => by
    have e1 : List.range' (2 * z) (2 * 0 + 1) = [2 * z] := rfl
    have e2 : List.range' z (0 + 1) = [z] := rfl
    have e3 : L.withVias.dim.y = L.dim.y := rfl
    rw [e1, e2, writeLayers, writeLayers, e3, writeRows_up]
    have e4 : separator L.withVias = separator L := rfl
    have hzz : z = L.dim.z := by omega
    cases h : writeRows L z (List.range (L.dim.y + 1)) a with
    | none => rfl
    | some r => simp [lift, writeLayers, e4, hzz]
  | k + 1, z, a, hz => by
    have e1 : List.range' (2 * z) (2 * (k + 1) + 1) = 2 * z :: (2 * z + 1) :: List.range' (2 * (z + 1)) (2 * k + 1) := by
      rw [show 2 * (k + 1) + 1 = (2 * k + 1) + 1 + 1 by omega, List.range'_succ, List.range'_succ]
      rfl
    have e2 : List.range' z (k + 1 + 1) = z :: List.range' (z + 1) (k + 1) := List.range'_succ
    have e3 : L.withVias.dim.y = L.dim.y := rfl
    have e4 : separator L.withVias = separator L := rfl
    rw [e1, e2, writeLayers, writeLayers, e3, writeRows_up]
    have hzz : z ≠ L.dim.z := by omega
    cases h : writeRows L z (List.range (L.dim.y + 1)) a with
    | none => rfl
    | some r =>
      obtain ⟨o, ls, a'⟩ := r
      simp only [Option.map_some, lift]
      rw [writeLayers, e3, writeRows_via]
      simp only
      rw [writeLayers_via L k (z + 1) a' (by omega)]
      cases writeLayers L true (List.range' (z + 1) (k + 1)) a' with
      | none => rfl
      | some r => simp [lift, e4, hzz, viaLayer]

/-- With vias, the file is that of the layout with additional layers for the vias, to which the other theorems
apply. -/
theorem C70_vias (gen : List Char) (L : Lyt) : write gen L true = write gen L.withVias false := by
  unfold write
  have e := writeLayers_via L L.dim.z 0 alphabet (by omega)
  have e5 : L.withVias.dim.z = 2 * L.dim.z := rfl
  rw [List.range_eq_range', List.range_eq_range', e5]
  simp only [Nat.mul_zero] at e
  rw [e]
  have e1 : separator L.withVias = separator L := rfl
  have e2 : header gen L.withVias = header gen L := rfl
  have e3 : ∀ t : Pos × Char, writeLabelled L.withVias (up t.1, t.2) = writeLabelled L t := by
    intro t
    obtain ⟨h1, h2, h3⟩ := withVias_up L t.1
    unfold writeLabelled
    simp only [h1, h2, h3]
  cases writeLayers L true (List.range' 0 (L.dim.z + 1)) alphabet with
  | none => rfl
  | some r =>
    simp only [Option.map_some, lift, e1, e2, List.flatMap_map, e3]

/-! ## Examples -/

namespace Example

/-- A wire with an input `a` and an output `f` and a fixed cell, on two layers. -/
def wire : Lyt where
  title := "wire".toList
  dim := ⟨2, 1, 1⟩
  ty p := if p = ⟨0, 0, 0⟩ then .input else if p = ⟨1, 0, 0⟩ then .normal else if p = ⟨2, 0, 0⟩ then .output
    else if p = ⟨1, 1, 0⟩ then .const1 else if p = ⟨1, 0, 1⟩ then .normal else .empty
  mode p := if p = ⟨1, 0, 1⟩ then .vertical else .normal
  name p := if p = ⟨0, 0, 0⟩ then ['a'] else if p = ⟨2, 0, 0⟩ then ['f'] else []
  clock p := if p = ⟨1, 0, 0⟩ then 1 else if p = ⟨2, 0, 0⟩ then 2 else if p = ⟨1, 0, 1⟩ then 3 else 0

theorem wire_within (p : Pos) (h : wire.ty p ≠ .empty) : wire.Within p := by
  unfold wire at h
  simp only at h
  unfold Lyt.Within wire
  split_ifs at h with h1 h2 h3 h4 h5 <;> first | (subst_vars; decide) | exact absurd rfl h

theorem wire_expressible : wire.Expressible := by
  refine ⟨wire_within, by decide, ?_, ?_, ?_, ?_, ?_, ?_, ?_⟩
  · intro p c hc
    simp only [wire] at hc
    split_ifs at hc
    · rw [List.mem_singleton.1 hc]; decide
    · rw [List.mem_singleton.1 hc]; decide
    · simp at hc
  · intro p; simp only [wire]; grind
  · intro p; simp only [wire]; grind
  · intro p; simp only [wire]; grind
  · intro p; simp only [wire]; grind
  · intro p; simp only [wire]; grind
  · exact ⟨.inr ⟨⟨2, 0, 0⟩, by decide, rfl⟩, .inr ⟨⟨1, 1, 0⟩, by decide, rfl⟩, .inr ⟨⟨1, 0, 1⟩, by decide, rfl⟩⟩

/-- One cell. -/
def single (ty : QcaType) (name : List Char) (clock : Nat) : Lyt where
  title := []
  dim := ⟨1, 0, 0⟩
  ty p := if p = ⟨1, 0, 0⟩ then ty else .empty
  mode _ := .normal
  name p := if p = ⟨1, 0, 0⟩ then name else []
  clock p := if p = ⟨1, 0, 0⟩ then clock else 0

end Example

open Example in
/-- The hypotheses of the theorems are met, and this is the file. -/
example : '\n' ∉ "fiction".toList ∧ wire.Expressible ∧
    write "fiction".toList wire false = some ("[ wire - fiction ]\n\n= = = \na 1 b \n  +   \n= = = \n  3   \n      \n" ++
      "= = = \n\n\n$\n\na:\n- input\n- label = \"a\"\n- clock = 0\n\nb:\n- output\n- label = \"f\"\n- clock = 2\n\n").toList :=
  ⟨by decide, wire_expressible, by decide +kernel⟩

open Example in
/-- A constant with a name is read as a normal cell. -/
theorem C70_false_constant : ∃ (L : Lyt) (text : List Char) (p : Pos), L.Writable ∧ write [] L false = some text ∧
    L.Present p ∧ L.ty p = .const1 ∧ ∀ R, read [] text = .ok R → R.ty p = .normal := by
  have hw : (single .const1 ['c'] 0).Writable := by
    refine ⟨by decide, ?_, ?_⟩
    · intro p _; simp only [single]; split_ifs <;> decide
    · intro p _; simp only [single]; split_ifs <;> decide
  have key : ∃ text, write [] (single .const1 ['c'] 0) false = some text := Option.isSome_iff_exists.1 (by decide +kernel)
  obtain ⟨text, ht⟩ := key
  refine ⟨_, text, ⟨1, 0, 0⟩, hw, ht, by decide, by decide, ?_⟩
  intro R hR
  obtain ⟨R', hr, _, hb⟩ := C70_read_write [] [] (by simp) _ hw text ht
  rw [hr] at hR
  obtain rfl : R' = R := by simpa using hR
  rw [hb.ty]
  decide

open Example in
/-- White space in a name is lost. -/
theorem C70_false_name : ∃ (L : Lyt) (text : List Char) (p : Pos), L.Writable ∧ write [] L false = some text ∧
    L.Present p ∧ L.name p = "a b".toList ∧ ∀ R, read [] text = .ok R → R.name p = "ab".toList := by
  have hw : (single .normal "a b".toList 0).Writable := by
    refine ⟨by decide, ?_, ?_⟩
    · intro p _; simp only [single]; split_ifs <;> decide
    · intro p _; simp only [single]; split_ifs <;> decide
  have key : ∃ text, write [] (single .normal "a b".toList 0) false = some text :=
    Option.isSome_iff_exists.1 (by decide +kernel)
  obtain ⟨text, ht⟩ := key
  refine ⟨_, text, ⟨1, 0, 0⟩, hw, ht, by decide, by decide, ?_⟩
  intro R hR
  obtain ⟨R', hr, _, hb⟩ := C70_read_write [] [] (by simp) _ hw text ht
  rw [hr] at hR
  obtain rfl : R' = R := by simpa using hR
  rw [hb.name]
  decide

open Example in
/-- A cell of mode `CROSSOVER` in layer one, where crossings are, is read as `VERTICAL`; and a constant loses its clock
number. -/
theorem C70_false_mode_and_clock : ∃ (L : Lyt) (text : List Char) (p q : Pos), L.Writable ∧
    write [] L false = some text ∧ L.Present p ∧ L.mode p = .crossover ∧ L.Present q ∧ L.clock q = 2 ∧
    ∀ R, read [] text = .ok R → R.mode p = .vertical ∧ R.clock q = 0 := by
  let L : Lyt := { wire with mode := fun p => if p = ⟨1, 0, 1⟩ then .crossover else .normal, clock := fun _ => 2 }
  have hw : L.Writable := by
    refine ⟨by decide, ?_, ?_⟩
    · intro p _; simp only [L, wire]; split_ifs <;> decide
    · intro p _; simp only [L]; decide
  have key : ∃ text, write [] L false = some text := Option.isSome_iff_exists.1 (by decide +kernel)
  obtain ⟨text, ht⟩ := key
  refine ⟨L, text, ⟨1, 0, 1⟩, ⟨1, 1, 0⟩, hw, ht, by decide, by decide, by decide, by decide, ?_⟩
  intro R hR
  obtain ⟨R', hr, _, hb⟩ := C70_read_write [] [] (by simp) _ hw text ht
  rw [hr] at hR
  obtain rfl : R' = R := by simpa using hR
  rw [hb.mode, hb.clock]
  decide

open Example in
/-- A clock number of two digits moves the cells after it, here the second cell of the row. -/
theorem C70_false_clock : ∃ (L : Lyt) (text : List Char) (R : Lyt), write [] L false = some text ∧
    read [] text = .ok R ∧ L.clock ⟨0, 0, 0⟩ = 10 ∧ L.ty ⟨1, 0, 0⟩ = .normal ∧ R.ty ⟨1, 0, 0⟩ = .empty ∧
    R.clock ⟨0, 0, 0⟩ = 1 := by
  let L : Lyt := ⟨[], ⟨1, 0, 0⟩, fun _ => .normal, fun _ => .normal, fun _ => [], fun p => if p.x = 0 then 10 else 0⟩
  have key : (write [] L false).map (fun t => match read [] t with
      | .ok R => decide (R.ty ⟨1, 0, 0⟩ = .empty ∧ R.clock ⟨0, 0, 0⟩ = 1)
      | .error _ => false) = some true := by decide +kernel
  obtain ⟨text, ht, h2⟩ := Option.map_eq_some_iff.1 key
  cases hR : read [] text with
  | error e => rw [hR] at h2; simp at h2
  | ok R =>
    rw [hR] at h2
    simp only [decide_eq_true_eq] at h2
    exact ⟨L, text, R, ht, hR, rfl, rfl, h2.1, h2.2⟩

end Verif.Io
