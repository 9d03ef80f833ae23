import Verif.Sidb.ExgsLemmas
import Verif.Sidb.ForcedProps

/-!
# C36: the exhaustive simulation returns exactly the physically valid charge distributions
-/
namespace Verif.Sidb

/-- For every layout with at least one SiDB, all parameters and both bases: the simulation is defined, lists
every physically valid charge distribution over the states of the base, each once, and nothing else. -/
theorem C36_exact (E : Env) (b : Nat) (hb : b = 2 ∨ b = 3) (hn : 0 < E.n) :
    ∃ res, exgs E b = some res ∧ res.Nodup ∧
      ∀ l : List Charge, l ∈ res ↔ l.length = E.n ∧ (∀ x ∈ l, Admissible b x) ∧ Valid E (ofList l) := by
  classical
  have h2 : 2 ≤ b := by omega
  have h3 : b ≤ 3 := by omega
  have hpos : 0 < b ^ E.n := Nat.pow_pos (by omega)
  unfold exgs
  rw [if_neg (by omega), exgsLoop_eq E b h2 h3 (b ^ E.n) 0 _ (AtIndex_init E b h2) hpos (by omega)]
  refine ⟨_, rfl, ?_, fun l => ?_⟩
  · refine List.Nodup.filter _ (List.Nodup.map_on ?_ List.nodup_range')
    intro k hk k' hk' e
    rw [List.mem_range'_1] at hk hk'
    exact chargesOf_inj b E.n h2 h3 (by omega) (by omega) e
  · rw [List.mem_filter, List.mem_map, decide_eq_true_eq, ← and_assoc]
    refine and_congr_left fun _ => ?_
    rw [← mem_chargesOf b E.n hb l]
    simp only [List.mem_range'_1]
    constructor
    · rintro ⟨k, hk, e⟩; exact ⟨k, by omega, e⟩
    · rintro ⟨k, hk, e⟩; exact ⟨k, by omega, e⟩

/-- For a layout without SiDBs nothing is returned. -/
theorem C36_empty (E : Env) (b : Nat) (hn : E.n = 0) : exgs E b = some [] := by simp [exgs, hn]

/-- The distributions are listed in the order of their charge indices. -/
theorem C36_ordered (E : Env) (b : Nat) (hb : b = 2 ∨ b = 3) (hn : 0 < E.n) (res : List (List Charge)) (h : exgs E b = some res) :
    res.Pairwise fun l l' => toIndex b E.n none (ofList l) < toIndex b E.n none (ofList l') := by
  classical
  have h2 : 2 ≤ b := by omega
  have h3 : b ≤ 3 := by omega
  have hpos : 0 < b ^ E.n := Nat.pow_pos (by omega)
  unfold exgs at h
  rw [if_neg (by omega), exgsLoop_eq E b h2 h3 (b ^ E.n) 0 _ (AtIndex_init E b h2) hpos (by omega)] at h
  obtain rfl := Option.some.inj h
  refine List.Pairwise.filter _ ?_
  rw [List.pairwise_map]
  have hval : ∀ k < b ^ E.n, toIndex b E.n none (ofList (chargesOf b E.n k)) = k := by
    intro k hk
    rw [toIndex_eq b E.n none _ (by simp)]
    have := value_chargesOf b E.n k E.n h2 h3 (Nat.le_refl _)
    simp only [Nat.sub_self, Nat.pow_zero, Nat.div_one, Nat.mod_eq_of_lt hk] at this
    rw [← this]
    refine value_congr b none E.n fun i hi _ => ?_
    simp [ofList, chargesOf, hi, this]
  refine List.Pairwise.imp_of_mem ?_ (List.pairwise_lt_range' (s := 0) (n := b ^ E.n - 0))
  intro k k' hk hk' hlt
  rw [List.mem_range'_1] at hk hk'
  rw [hval k (by omega), hval k' (by omega)]
  exact hlt

/-- If positive charges cannot occur, base two and base three give the same distributions. -/
theorem C36_base_two_suffices (E : Env) (P : E.Physical) (hn : 0 < E.n) (h : canPositiveOccur E = false)
    (r2 r3 : List (List Charge)) (h2 : exgs E 2 = some r2) (h3 : exgs E 3 = some r3) (l : List Charge) : l ∈ r2 ↔ l ∈ r3 := by
  obtain ⟨_, e2, _, m2⟩ := C36_exact E 2 (Or.inl rfl) hn
  obtain ⟨_, e3, _, m3⟩ := C36_exact E 3 (Or.inr rfl) hn
  obtain rfl := Option.some.inj (h2.symm.trans e2)
  obtain rfl := Option.some.inj (h3.symm.trans e3)
  rw [m2, m3]
  constructor
  · rintro ⟨hl, ha, hv⟩
    refine ⟨hl, fun x hx => ?_, hv⟩
    rcases ha x hx with h | h | ⟨_, h⟩
    · exact Or.inl h
    · exact Or.inr (Or.inl h)
    · omega
  · rintro ⟨hl, ha, hv⟩
    refine ⟨hl, fun x hx => ?_, hv⟩
    rcases ha x hx with h' | h' | ⟨h', _⟩
    · exact Or.inl h'
    · exact Or.inr (Or.inl h')
    · exfalso
      obtain ⟨i, hi, e⟩ := List.getElem_of_mem hx
      refine C38_no_positive E P h _ hv i (hl ▸ hi) ?_
      simp [ofList, hi, e, h']

example : exgs exampleEnv 3 = some [[.neg, .neu, .neg], [.neu, .neg, .neg]] := by decide +kernel

end Verif.Sidb
