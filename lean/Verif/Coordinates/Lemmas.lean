import Verif.Coordinates.Model

namespace Verif.Coordinates

/-! ## The range loop -/

/-- The range loop over a linearly ordered box `In` with successor function `step`. -/
theorem rangeLoop_spec {α : Type} [DecidableEq α] (step : α → α) (In : α → Prop)
    (lt : α → α → Prop) (e : α) (meas : α → Nat)
    (irr : ∀ a, ¬ lt a a)
    (tri : ∀ a b, In a → In b → lt a b ∨ a = b ∨ lt b a)
    (trans : ∀ a b c, lt a b → lt b c → lt a c)
    (he : ¬ In e)
    (hstep : ∀ c, In c →
      (step c = e ∧ meas c = 0 ∧ ∀ b, In b → ¬ lt c b) ∨
      (In (step c) ∧ lt c (step c) ∧ meas (step c) + 1 = meas c ∧
        ∀ b, In b → lt c b → ¬ lt b (step c)))
    (stop : α) (hstop : stop = e ∨ In stop) :
    ∀ (n : Nat) (cur : α), meas cur < n → (cur = stop ∨ (In cur ∧ (stop = e ∨ lt cur stop))) →
      ∀ fuel, n ≤ fuel → ∃ L, rangeLoop step stop fuel cur = some L ∧
        (∀ b, b ∈ L ↔ In b ∧ In cur ∧ ¬ lt b cur ∧ (stop = e ∨ lt b stop)) ∧ L.Pairwise lt ∧
        L.length + (if stop = e then 0 else meas stop + 1) = if cur = e then 0 else meas cur + 1 := by
  intro n
  induction n with
  | zero => intro cur h; omega
  | succ n ih =>
    intro cur hm hcur fuel hf
    by_cases hcs : cur = stop
    · refine ⟨[], ?_, ?_, List.Pairwise.nil, by simp [hcs]⟩
      · unfold rangeLoop; simp [hcs]
      · intro b
        constructor
        · simp
        · rintro ⟨h1, h2, h3, h4⟩
          rcases h4 with h4 | h4
          · subst h4; subst hcs; exact absurd h2 he
          · subst hcs; exact absurd h4 h3
    · have hcur' : In cur ∧ (stop = e ∨ lt cur stop) := by
        rcases hcur with h | h
        · exact absurd h hcs
        · exact h
      obtain ⟨hin, hlt⟩ := hcur'
      obtain ⟨fuel, rfl⟩ : ∃ k, fuel = k + 1 := ⟨fuel - 1, by omega⟩
      unfold rangeLoop
      simp only [hcs, if_false]
      rcases hstep cur hin with ⟨hs, hm0, hmax⟩ | ⟨hs1, hs2, hs3, hs4⟩
      · -- last element
        have hse : stop = e := by
          rcases hlt with h | h
          · exact h
          · rcases hstop with h' | h'
            · exact h'
            · exact absurd h (hmax _ h')
        refine ⟨[cur], ?_, ?_, by simp, ?_⟩
        · rw [hs, ← hse]
          have : rangeLoop step stop fuel stop = some [] := by unfold rangeLoop; simp
          rw [this]; rfl
        · intro b
          simp only [List.mem_singleton]
          constructor
          · rintro rfl; exact ⟨hin, hin, irr _, Or.inl hse⟩
          · rintro ⟨h1, _, h3, _⟩
            rcases tri b cur h1 hin with h | h | h
            · exact absurd h h3
            · exact h
            · exact absurd h (hmax _ h1)
        · have : cur ≠ e := fun h => he (h ▸ hin)
          simp [hse, hm0, this]
      · have hnext : step cur = stop ∨ (In (step cur) ∧ (stop = e ∨ lt (step cur) stop)) := by
          by_cases h : step cur = stop
          · exact Or.inl h
          · right
            refine ⟨hs1, ?_⟩
            by_cases hse : stop = e
            · exact Or.inl hse
            · right
              have h'' := hstop.resolve_left hse
              have h' := hlt.resolve_left hse
              rcases tri _ _ hs1 h'' with h3 | h3 | h3
              · exact h3
              · exact absurd h3 h
              · exact absurd h3 (hs4 _ h'' h')
        obtain ⟨L, hL, hmem, hpw, hlen⟩ := ih (step cur) (by omega) hnext fuel (by omega)
        refine ⟨cur :: L, by rw [hL]; rfl, ?_, ?_, ?_⟩
        · intro b
          rw [List.mem_cons, hmem]
          constructor
          · rintro (rfl | ⟨h1, h2, h3, h4⟩)
            · exact ⟨hin, hin, irr _, hlt⟩
            · exact ⟨h1, hin, fun h => h3 (trans _ _ _ h hs2), h4⟩
          · rintro ⟨h1, h2, h3, h4⟩
            rcases tri b cur h1 hin with h | h | h
            · exact absurd h h3
            · exact Or.inl h
            · exact Or.inr ⟨h1, hs1, hs4 _ h1 h, h4⟩
        · refine List.Pairwise.cons ?_ hpw
          intro b hb
          obtain ⟨h1, _, h3, _⟩ := (hmem b).1 hb
          rcases tri b _ h1 hs1 with h | h | h
          · exact absurd h h3
          · exact h ▸ hs2
          · exact trans _ _ _ hs2 h
        · have h1 : cur ≠ e := fun h => he (h ▸ hin)
          have h2 : step cur ≠ e := fun h => he (h ▸ hs1)
          rw [if_neg h2] at hlen
          rw [if_neg h1, List.length_cons]
          omega

namespace UCoord

theorem ofWord_toWord (c : UCoord) : ofWord c.toWord = c := by
  obtain ⟨d, z, y, x⟩ := c
  simp only [ofWord, toWord, UCoord.mk.injEq]
  refine ⟨?_, ?_, ?_, ?_⟩ <;>
  · ext i hi
    simp only [BitVec.getElem_setWidth, BitVec.getLsbD_ushiftRight, BitVec.getLsbD_shiftLeft,
      BitVec.getLsbD_or, BitVec.getLsbD_setWidth]
    grind

theorem toWord_ofWord (t : BitVec 64) : (ofWord t).toWord = t := by
  simp only [ofWord, toWord]
  ext i hi
  simp only [BitVec.getElem_or, BitVec.getElem_shiftLeft, BitVec.getElem_setWidth,
    BitVec.getLsbD_ushiftRight, BitVec.getLsbD_shiftLeft, BitVec.getLsbD_setWidth]
  grind

theorem toWord_default : default.toWord = (1#64 <<< 63) := by decide

theorem getDead_eq (c : UCoord) : c.getDead = { c with d := 1#1 } := by
  have h : c.toWord ||| default.toWord = toWord { c with d := 1#1 } := by
    rw [toWord_default]
    simp only [toWord]
    ext i hi
    simp only [BitVec.getElem_or, BitVec.getElem_shiftLeft, BitVec.getElem_setWidth,
      BitVec.getElem_one]
    grind
  rw [getDead, h, ofWord_toWord]

theorem eqb_iff (a b : UCoord) : eqb a b = true ↔ a = b := by
  cases a; cases b; simp [eqb, and_assoc]

/-- `ltb` in terms of natural numbers. -/
theorem ltb_iff (a b : UCoord) : ltb a b = true ↔
    a.z.toNat < b.z.toNat ∨ (a.z.toNat = b.z.toNat ∧
      (a.y.toNat < b.y.toNat ∨ (a.y.toNat = b.y.toNat ∧ a.x.toNat < b.x.toNat))) := by
  simp only [ltb, BitVec.lt_def, ← BitVec.toNat_inj]
  split
  · simp_all
  · split
    · split
      · simp_all
      · split <;> simp_all
    · simp; omega

theorem ext_nat {a b : UCoord} (hd : a.d = b.d) (hz : a.z.toNat = b.z.toNat)
    (hy : a.y.toNat = b.y.toNat) (hx : a.x.toNat = b.x.toNat) : a = b := by
  obtain ⟨d, z, y, x⟩ := a
  obtain ⟨d', z', y', x'⟩ := b
  simp only [BitVec.toNat_inj] at *
  simp_all

end UCoord

namespace Cube

theorem eqb_iff (a b : Cube) : eqb a b = true ↔ a = b := by
  cases a; cases b; simp [eqb, and_assoc]

theorem ltb_iff (a b : Cube) : ltb a b = true ↔
    a.z < b.z ∨ (a.z = b.z ∧ (a.y < b.y ∨ (a.y = b.y ∧ a.x < b.x))) := by
  simp only [ltb]
  split
  · simp_all
  · split
    · split
      · simp_all
      · split <;> simp_all
    · simp; omega

end Cube

namespace Siqad

theorem eqb_iff (a b : Siqad) : eqb a b = true ↔ a = b := by
  cases a; cases b; simp [eqb, and_assoc]

theorem ltb_iff (a b : Siqad) : ltb a b = true ↔
    a.y < b.y ∨ (a.y = b.y ∧ (a.zi < b.zi ∨ (a.zi = b.zi ∧ a.x < b.x))) := by
  obtain ⟨d, z, y, x⟩ := a
  obtain ⟨d', z', y', x'⟩ := b
  cases z <;> cases z' <;> simp only [ltb, zi] <;> split <;> simp_all <;> omega

end Siqad

end Verif.Coordinates
