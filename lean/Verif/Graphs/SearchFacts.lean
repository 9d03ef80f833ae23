import Verif.Graphs.ColoringFacts

namespace Verif.Graphs

/-! ## The three searches, for any monotone property decided by the solver -/

section
variable {S : Nat → Prop} {solve : Solver}

/-- The search found the least number with the property. -/
def Least (S : Nat → Prop) (solve : Solver) (r : Found) : Prop :=
  ∃ k a, r = .sat k a ∧ solve k = some a ∧ ∀ j, S j → k ≤ j

theorem ascend_spec (h1 : ∀ k a, solve k = some a → S k) (h0 : ∀ k, solve k = none → ¬ S k) : ∀ (n k : Nat),
    (∀ j, S j → k ≤ j) → ((∃ j, j < k + n ∧ S j) → Least S solve (ascend solve n k)) ∧
      ((∀ j, ¬ S j) → ascend solve n k = .nothing)
  | 0, k, hk => by
    refine ⟨?_, fun _ => rfl⟩
    rintro ⟨j, hj, hS⟩
    have := hk j hS
    omega
  | n + 1, k, hk => by
    unfold ascend
    cases hs : solve k with
    | some a =>
      dsimp only
      exact ⟨fun _ => ⟨k, a, rfl, hs, hk⟩, fun hn => absurd (h1 k a hs) (hn k)⟩
    | none =>
      dsimp only
      have := ascend_spec h1 h0 n (k + 1) (by
        intro j hj
        have := hk j hj
        have : j ≠ k := by rintro rfl; exact h0 _ hs hj
        omega)
      rw [show k + (n + 1) = k + 1 + n by omega]
      exact this

theorem descend_spec (h1 : ∀ k a, solve k = some a → S k) (h0 : ∀ k, solve k = none → ¬ S k) (hmono : ∀ j k, j ≤ k → S j → S k)
    (hz : ¬ S 0) (q : Nat) (hq : ∀ j, S j → q ≤ j) : ∀ (k : Nat) (recent : Found),
    (S k → Least S solve (descend solve q recent k)) ∧ (¬ S k → descend solve q recent k = recent)
  | 0, recent => by
    refine ⟨fun h => absurd h hz, fun _ => ?_⟩
    unfold descend
    cases hs : solve 0 with
    | some a => exact absurd (h1 _ _ hs) hz
    | none => rfl
  | k + 1, recent => by
    unfold descend
    cases hs : solve (k + 1) with
    | none => exact ⟨fun h => absurd h (h0 _ hs), fun _ => rfl⟩
    | some a =>
      dsimp only
      have hS := h1 _ _ hs
      refine ⟨fun _ => ?_, fun h => absurd hS h⟩
      rw [if_pos (by have := hq _ hS; omega)]
      have ih := descend_spec h1 h0 hmono hz q hq k (.sat (k + 1) a)
      by_cases hk : S k
      · exact ih.1 hk
      · rw [ih.2 hk]
        refine ⟨k + 1, a, rfl, hs, ?_⟩
        intro j hj
        by_contra hc
        exact hk (hmono j k (by omega) hj)

theorem double_spec (h1 : ∀ k a, solve k = some a → S k) (h0 : ∀ k, solve k = none → ¬ S k) (n q : Nat) : ∀ (fuel h : Nat),
    1 ≤ h → n + 2 ≤ h + fuel → (h = q ∨ ∃ h', h = h' * 2 ∧ ¬ S h') →
    match double solve n fuel h with
    | (h2, some a) => solve h2 = some a ∧ (h2 = q ∨ ∃ h', h2 = h' * 2 ∧ ¬ S h')
    | (h2, none) => n < h2 ∧ (h2 = q ∨ ∃ h', h2 = h' * 2 ∧ ¬ S h')
  | 0, h, _, hf, hh => by
    unfold double
    dsimp only
    exact ⟨by omega, hh⟩
  | fuel + 1, h, hp, hf, hh => by
    unfold double
    by_cases hc : h < n + 1
    · rw [if_pos hc]
      cases hs : solve h with
      | some a => exact ⟨hs, hh⟩
      | none =>
        dsimp only
        exact double_spec h1 h0 n q fuel (h * 2) (by omega) (by omega) (.inr ⟨h, rfl, h0 _ hs⟩)
    · rw [if_neg hc]
      exact ⟨by omega, hh⟩

theorem partition_spec (h1 : ∀ k a, solve k = some a → S k) (h0 : ∀ k, solve k = none → ¬ S k) (hmono : ∀ j k, j ≤ k → S j → S k) :
    ∀ (fuel first len : Nat) (recent : Found), len ≤ fuel → (∀ i, i < first → ¬ S i) →
      (((∃ a, recent = .sat (first + len) a ∧ solve (first + len) = some a) ∨ ∃ j, j < first + len ∧ S j) →
        Least S solve (partitionPoint solve fuel first len recent)) ∧
      ((∀ j, ¬ S j) → partitionPoint solve fuel first len recent = recent)
  | 0, first, len, recent, hf, hlo => by
    obtain rfl : len = 0 := by omega
    unfold partitionPoint
    refine ⟨?_, fun _ => rfl⟩
    rintro (⟨a, rfl, hs⟩ | ⟨j, hj, hS⟩)
    · refine ⟨first, a, rfl, hs, ?_⟩
      intro j hj
      by_contra hc
      exact hlo j (by omega) hj
    · exact absurd hS (hlo j hj)
  | fuel + 1, first, len, recent, hf, hlo => by
    unfold partitionPoint
    by_cases hl : len = 0
    · rw [if_pos hl]
      subst hl
      refine ⟨?_, fun _ => rfl⟩
      rintro (⟨a, rfl, hs⟩ | ⟨j, hj, hS⟩)
      · refine ⟨first, a, rfl, hs, ?_⟩
        intro j hj
        by_contra hc
        exact hlo j (by omega) hj
      · exact absurd hS (hlo j hj)
    · rw [if_neg hl]
      dsimp only
      cases hs : solve (first + len / 2) with
      | some a =>
        dsimp only
        have ih := partition_spec h1 h0 hmono fuel first (len / 2) (.sat (first + len / 2) a) (by omega) hlo
        exact ⟨fun _ => ih.1 (.inl ⟨a, rfl, hs⟩), fun hn => absurd (h1 _ _ hs) (hn _)⟩
      | none =>
        dsimp only
        have ih := partition_spec h1 h0 hmono fuel (first + len / 2 + 1) (len - len / 2 - 1) recent (by omega) (by
          intro i hi hS
          exact h0 _ hs (hmono i _ (by omega) hS))
        rw [show first + len / 2 + 1 + (len - len / 2 - 1) = first + len by omega] at ih
        exact ih

theorem binary_spec (h1 : ∀ k a, solve k = some a → S k) (h0 : ∀ k, solve k = none → ¬ S k) (hmono : ∀ j k, j ≤ k → S j → S k)
    (n q : Nat) (hq1 : 1 ≤ q) (hqn : q ≤ n) (hq : ∀ j, S j → q ≤ j) :
    (S n → Least S solve (binary solve n q)) ∧ ((∀ j, ¬ S j) → binary solve n q = .nothing) := by
  have hd := double_spec h1 h0 n q (n + 1) q hq1 (by omega) (.inl rfl)
  unfold binary
  have hlow : ∀ h', ¬ S h' → ∀ i, i < h' → ¬ S i := fun h' hn i hi hS => hn (hmono i h' (by omega) hS)
  rcases hr : double solve n (n + 1) q with ⟨h, oa⟩
  rw [hr] at hd
  cases oa with
  | some a =>
    dsimp only at hd ⊢
    obtain ⟨hs, hh⟩ := hd
    refine ⟨fun _ => ?_, fun hn => absurd (h1 _ _ hs) (hn _)⟩
    by_cases he : h = q
    · rw [if_pos he]
      exact ⟨h, a, rfl, hs, by rw [he]; exact hq⟩
    · rw [if_neg he]
      rcases hh with hh | ⟨h', hh, hn⟩
      · exact absurd hh he
      · have e : h / 2 = h' := by omega
        rw [e]
        exact (partition_spec h1 h0 hmono (h' + 1) h' (h' + 1) (.sat h a) (by omega) (hlow h' hn)).1
          (.inr ⟨h, by omega, h1 _ _ hs⟩)
  | none =>
    dsimp only at hd ⊢
    obtain ⟨hgt, hh⟩ := hd
    rcases hh with hh | ⟨h', hh, hn⟩
    · omega
    · have e : h / 2 = h' := by omega
      rw [e]
      have := partition_spec h1 h0 hmono (h' + 1) h' (h' + 1) .nothing (by omega) (hlow h' hn)
      exact ⟨fun hS => this.1 (.inr ⟨n, by omega, hS⟩), this.2⟩

end

/-! ## Numbers of colors that suffice -/

section
variable {g : Graph} {p : SatParams}

theorem wanted_mono {j k : Nat} {f : Nat → Nat} (h : j ≤ k) (hw : Wanted g p j f) : Wanted g p k f := by
  refine ⟨⟨fun v hv => Nat.lt_of_lt_of_le (hw.1.1 v hv) h, hw.1.2⟩, fun hf => ?_⟩
  obtain ⟨c, hc, h2⟩ := hw.2 hf
  exact ⟨c, by omega, h2⟩

/-- As many colors as vertices suffice, if any number does. -/
theorem wanted_compress (hcl : ∀ cl ∈ p.cliques, IsClique g cl) (hV : g.vertices ≠ []) {k : Nat} {f : Nat → Nat}
    (h : Wanted g p k f) : ∃ f', Wanted g p g.vertices.length f' := by
  have hlen : (g.vertices.map f).dedup.length ≤ g.vertices.length := by
    have := (List.dedup_sublist (g.vertices.map f)).length_le
    simpa using this
  have hm : ∀ v ∈ g.vertices, f v ∈ (g.vertices.map f).dedup := fun v hv =>
    List.mem_dedup.2 (List.mem_map.2 ⟨v, hv, rfl⟩)
  refine ⟨fun v => (g.vertices.map f).dedup.idxOf (f v), ⟨⟨?_, ?_⟩, ?_⟩⟩
  · intro v hv
    have := List.idxOf_lt_length_of_mem (hm v hv)
    dsimp only
    omega
  · intro v hv w hw hvw he
    apply h.1.2 v hv w hw hvw
    have h1 := List.getElem_idxOf (List.idxOf_lt_length_of_mem (hm v hv))
    have h2 := List.getElem_idxOf (List.idxOf_lt_length_of_mem (hm w hw))
    rw [← h1, ← h2]
    congr 1
  · intro hf
    obtain ⟨c, hc, h2⟩ := h.2 hf
    by_cases hcs : p.cliques = []
    · refine ⟨0, List.length_pos_iff.2 hV, ?_⟩
      rw [hcs]
      intro cl hx
      cases hx
    · obtain ⟨cl, hx⟩ := List.exists_mem_of_ne_nil _ hcs
      obtain ⟨v, hv, he⟩ := h2 cl hx
      have hvV := (hcl cl hx).1 v hv
      refine ⟨(g.vertices.map f).dedup.idxOf c, ?_, ?_⟩
      · have := List.idxOf_lt_length_of_mem (hm v hvV)
        rw [he] at this
        omega
      · intro cl' hx'
        obtain ⟨v', hv', he'⟩ := h2 cl' hx'
        exact ⟨v', hv', by dsimp only; rw [he']⟩

/-- Without the frequency constraint, as many colors as vertices always suffice. -/
theorem wanted_all (wf : g.WF) (hf : p.frequency = false) : ∃ f, Wanted g p g.vertices.length f := by
  refine ⟨fun v => g.vertices.idxOf v, ⟨⟨fun v hv => List.idxOf_lt_length_of_mem hv, ?_⟩, ?_⟩⟩
  · intro v hv w hw hvw he
    apply (hvw.mem wf).2.2
    have h1 := List.getElem_idxOf (List.idxOf_lt_length_of_mem hv)
    have h2 := List.getElem_idxOf (List.idxOf_lt_length_of_mem hw)
    rw [← h1, ← h2]
    congr 1
  · rw [hf]
    intro h
    cases h

theorem lowerBound_le_length (hcl : ∀ cl ∈ p.cliques, IsClique g cl) (hV : g.vertices ≠ []) :
    lowerBound p.cliques ≤ g.vertices.length := by
  have hk : 1 ≤ g.vertices.length := List.length_pos_iff.2 hV
  unfold lowerBound
  cases hL : largestClique p.cliques with
  | none => exact hk
  | some c =>
    dsimp only
    split_ifs
    · have hc := hcl c (largestClique_mem hL)
      exact (List.Nodup.subperm hc.2.1 (fun v hv => hc.1 v hv)).length_le
    · exact hk

theorem search_spec (wf : g.WF) (hcl : ∀ cl ∈ p.cliques, IsClique g cl) (hV : g.vertices ≠ []) {solve : Solver}
    (hx : Exact g p solve) :
    ((∃ k f, Wanted g p k f) → Least (fun k => ∃ f, Wanted g p k f) solve (search g p solve)) ∧
      ((∀ k f, ¬ Wanted g p k f) → search g p solve = match p.tactic with
        | .descending => .null
        | _ => .nothing) := by
  have h1 : ∀ k a, solve k = some a → ∃ f, Wanted g p k f := fun k a hs => ⟨_, wanted_of_inst wf hcl (hx.1 k a hs)⟩
  have h0 : ∀ k, solve k = none → ¬ ∃ f, Wanted g p k f := by
    rintro k hs ⟨f, hf⟩
    obtain ⟨a, ha⟩ := inst_of_wanted wf hcl hf
    exact hx.2 k hs a ha
  have hmono : ∀ j k, j ≤ k → (∃ f, Wanted g p j f) → ∃ f, Wanted g p k f := fun j k hjk ⟨f, hf⟩ => ⟨f, wanted_mono hjk hf⟩
  have hq : ∀ j, (∃ f, Wanted g p j f) → lowerBound p.cliques ≤ j := fun j ⟨f, hf⟩ => lowerBound_le hcl hV hf.1
  have hqn := lowerBound_le_length hcl hV
  have hq1 := lowerBound_pos p.cliques
  have hall : (∃ k f, Wanted g p k f) → ∃ f, Wanted g p g.vertices.length f := fun ⟨k, f, h⟩ => wanted_compress hcl hV h
  have hz : ¬ ∃ f, Wanted g p 0 f := by
    rintro ⟨f, hf⟩
    obtain ⟨v, hv⟩ := List.exists_mem_of_ne_nil _ hV
    exact absurd (hf.1.1 v hv) (by omega)
  unfold search
  dsimp only
  cases p.tactic with
  | ascending =>
    dsimp only
    have := ascend_spec h1 h0 (g.vertices.length + 1 - lowerBound p.cliques) (lowerBound p.cliques) hq
    refine ⟨fun h => this.1 ⟨g.vertices.length, by omega, hall h⟩, fun h => this.2 (fun j ⟨f, hf⟩ => h j f hf)⟩
  | descending =>
    dsimp only
    rw [if_pos (by omega)]
    have := descend_spec h1 h0 hmono hz (lowerBound p.cliques) hq g.vertices.length .null
    exact ⟨fun h => this.1 (hall h), fun h => this.2 (fun ⟨f, hf⟩ => h _ f hf)⟩
  | binary =>
    dsimp only
    have := binary_spec h1 h0 hmono g.vertices.length (lowerBound p.cliques) hq1 hqn hq
    exact ⟨fun h => this.1 (hall h), fun h => this.2 (fun j ⟨f, hf⟩ => h j f hf)⟩

/-! ## The extracted coloring -/

theorem foldl_frequent (cs : List (Nat × Nat)) : ∀ c : Nat × Nat,
    (cs.foldl (fun best d => if best.2 < d.2 then d else best) c) ∈ c :: cs ∧
      ∀ d ∈ c :: cs, d.2 ≤ (cs.foldl (fun best d => if best.2 < d.2 then d else best) c).2 := by
  induction cs with
  | nil => intro c; simp
  | cons d cs ih =>
    intro c
    rw [List.foldl_cons]
    obtain ⟨i1, i2⟩ := ih (if c.2 < d.2 then d else c)
    generalize (cs.foldl (fun best d => if best.2 < d.2 then d else best) (if c.2 < d.2 then d else c)) = r at *
    refine ⟨?_, ?_⟩
    · split_ifs at i1 <;> grind
    · intro e he
      have h2 := i2 (if c.2 < d.2 then d else c) (List.mem_cons_self ..)
      rcases List.mem_cons.1 he with rfl | he
      · split_ifs at h2 <;> omega
      · rcases List.mem_cons.1 he with rfl | he
        · split_ifs at h2 <;> omega
        · exact i2 e (List.mem_cons_of_mem _ he)

theorem mostFrequent_spec {l : List (Nat × Nat)} (hl : l ≠ []) :
    ∃ b, mostFrequent l = some b ∧ b ∈ l ∧ ∀ d ∈ l, d.2 ≤ b.2 := by
  cases l with
  | nil => exact absurd rfl hl
  | cons c cs => exact ⟨_, rfl, (foldl_frequent cs c).1, (foldl_frequent cs c).2⟩

theorem extract_spec {order : List (Nat × Nat) → List (Nat × Nat)} (ho : ∀ l, (order l).Perm l) (hV : g.vertices ≠ []) {k : Nat}
    {a : Model} (h : Instance g p k a) :
    Paints g (extract g order k a) (colorOf k a) ∧
      (extract g order k a).colorFrequency = count g (colorOf k a) (extract g order k a).mostFrequent ∧
      (∀ c, count g (colorOf k a) c ≤ (extract g order k a).colorFrequency) ∧ 1 ≤ (extract g order k a).colorFrequency := by
  have hcount : ∀ c, c < k → (g.vertices.filter fun v => a v c).length = count g (colorOf k a) c := by
    intro c hc
    unfold count
    congr 1
    refine List.filter_congr ?_
    intro v hv
    have := (colorOf_spec h hv).2.2 c hc
    rw [Bool.eq_iff_iff, this]
    simp
  have hmem : ∀ c n, (c, n) ∈ ((List.range k).filterMap fun c =>
      let n := (g.vertices.filter fun v => a v c).length
      if n = 0 then none else some (c, n)) ↔ c < k ∧ n = count g (colorOf k a) c ∧ n ≠ 0 := by
    intro c n
    rw [List.mem_filterMap]
    constructor
    · rintro ⟨d, hd, h2⟩
      rw [List.mem_range] at hd
      dsimp only at h2
      rw [hcount d hd] at h2
      split_ifs at h2 with h3
      simp only [Option.some.injEq, Prod.mk.injEq] at h2
      obtain ⟨rfl, rfl⟩ := h2
      exact ⟨hd, rfl, h3⟩
    · rintro ⟨h2, rfl, h3⟩
      refine ⟨c, List.mem_range.2 h2, ?_⟩
      dsimp only
      rw [hcount c h2, if_neg h3]
  generalize hF : ((List.range k).filterMap fun c =>
      let n := (g.vertices.filter fun v => a v c).length
      if n = 0 then none else some (c, n)) = freqs at hmem
  obtain ⟨v0, hv0⟩ := List.exists_mem_of_ne_nil _ hV
  have hpos : ∀ v ∈ g.vertices, count g (colorOf k a) (colorOf k a v) ≠ 0 := by
    intro v hv he
    unfold count at he
    rw [List.length_eq_zero_iff, List.filter_eq_nil_iff] at he
    exact he v hv (by simp)
  have hne : order freqs ≠ [] := by
    intro he
    have := (ho freqs).mem_iff.2 ((hmem _ _).2 ⟨(colorOf_spec h hv0).2.1, rfl, hpos v0 hv0⟩)
    rw [he] at this
    cases this
  obtain ⟨b, hb, hbm, hmax⟩ := mostFrequent_spec hne
  have hb1 := (hmem b.1 b.2).1 ((ho freqs).mem_iff.1 hbm)
  have e1 : (extract g order k a).mostFrequent = b.1 := by
    unfold extract
    dsimp only
    rw [hF, hb]
    rfl
  have e2 : (extract g order k a).colorFrequency = b.2 := by
    unfold extract
    dsimp only
    rw [hF, hb]
    rfl
  refine ⟨?_, ?_, ?_, ?_⟩
  · unfold Paints extract
    dsimp only
    rw [← List.filterMap_eq_map]
    refine List.filterMap_congr ?_
    intro v hv
    rw [(colorOf_spec h hv).1]
    rfl
  · rw [e1, e2]
    exact hb1.2.1
  · intro c
    rw [e2]
    by_cases hc : count g (colorOf k a) c = 0
    · omega
    · have hck : c < k := by
        unfold count at hc
        rw [List.length_eq_zero_iff] at hc
        obtain ⟨v, hv⟩ := List.exists_mem_of_ne_nil _ hc
        rw [List.mem_filter] at hv
        have : colorOf k a v = c := by simpa using hv.2
        rw [← this]
        exact (colorOf_spec h hv.1).2.1
      exact hmax (c, _) ((ho freqs).mem_iff.2 ((hmem _ _).2 ⟨hck, rfl, hc⟩))
  · rw [e2]
    have := hb1.2.2
    omega

end

end Verif.Graphs
