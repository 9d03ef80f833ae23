import Verif.PhysicalDesign.HexaBuild
import Mathlib.Data.List.Nodup

/-!
# Running hexagonalization
-/
namespace Verif.PhysicalDesign.Hexa

open Verif.Layouts Verif.Clocking Verif.GateLevel Verif.PhysicalDesign.Ortho

/-! ## The order of the tiles -/

theorem mem_tiles {m : Dim} {t : Coord} : t ∈ tiles m ↔ InBounds m t := by
  unfold tiles InBounds
  simp only [List.mem_flatMap, List.mem_range]
  constructor
  · rintro ⟨k, hk, x, hx, h⟩
    split_ifs at h with hc
    · simp only [List.mem_map, List.mem_range] at h
      obtain ⟨z, hz, rfl⟩ := h
      exact ⟨rfl, by simp only; omega, by simp only; omega, by simp only; omega⟩
    · cases h
  · rintro ⟨h1, h2, h3, h4⟩
    refine ⟨t.x + t.y, by omega, t.x, by omega, ?_⟩
    rw [if_pos (by omega)]
    simp only [List.mem_map, List.mem_range]
    refine ⟨t.z, by omega, ?_⟩
    cases t
    simp only at h1 ⊢
    subst h1
    simp only [Coord.mk.injEq, true_and, and_true]
    omega

theorem tiles_nodup (m : Dim) : (tiles m).Nodup := by
  unfold tiles
  rw [List.nodup_flatMap]
  constructor
  · intro k hk
    rw [List.nodup_flatMap]
    constructor
    · intro x hx
      split_ifs
      · exact List.nodup_range.map (fun a b e => by simpa using e)
      · exact List.nodup_nil
    · refine List.nodup_range.imp ?_
      intro a b hab t ha hb
      simp only at ha hb
      split_ifs at ha hb <;> simp only [List.mem_map, List.not_mem_nil] at ha hb
      obtain ⟨_, -, rfl⟩ := ha
      obtain ⟨_, -, e⟩ := hb
      simp only [Coord.mk.injEq] at e
      exact hab e.1.symm
  · refine List.nodup_range.imp ?_
    intro a b hab t ha hb
    simp only [List.mem_flatMap, List.mem_range] at ha hb
    obtain ⟨x, hx, ha⟩ := ha
    obtain ⟨x', hx', hb⟩ := hb
    split_ifs at ha hb <;> simp only [List.mem_map, List.not_mem_nil] at ha hb
    obtain ⟨_, -, rfl⟩ := ha
    obtain ⟨_, -, e⟩ := hb
    simp only [Coord.mk.injEq] at e
    omega

theorem tiles_sorted (m : Dim) : (tiles m).Pairwise (fun a b => a.x + a.y ≤ b.x + b.y) := by
  unfold tiles
  have key : ∀ k, ∀ t ∈ (List.range (k + 1)).flatMap (fun x =>
      if k - x < m.Y + 1 ∧ x < m.X + 1 then (List.range (m.Z + 1)).map (fun z => (⟨x, k - x, z, false⟩ : Coord)) else []), t.x + t.y = k := by
    intro k t ht
    simp only [List.mem_flatMap, List.mem_range] at ht
    obtain ⟨x, hx, ha⟩ := ht
    split_ifs at ha <;> simp only [List.mem_map, List.not_mem_nil] at ha
    obtain ⟨_, -, rfl⟩ := ha
    simp only
    omega
  rw [List.pairwise_flatMap]
  constructor
  · intro k hk
    exact List.pairwise_of_forall_mem_list (fun a ha b hb => by rw [key k a ha, key k b hb])
  · refine List.pairwise_lt_range.imp ?_
    intro a b hab x hx y hy
    rw [key a x hx, key b y hy]
    omega

/-! ## The loops -/

/-- The inputs of the result. -/
structure Pins (m : Dim) (s : State) (K : Nat) (lyt : State) : Prop where
  inputs : lyt.inputs = (List.range K).map (2 + ·)
  pin : ∀ i n, i < K → s.inputs[i]? = some n → lyt.tileNode (conv m s (s.getTile n)) = some (2 + i)

section
variable {m : Dim} {nc : NumClks} {s : State} (H : Hexable m nc s)

/-- The tiles of inputs. -/
def PiTile (s : State) (l : List Nat) (t : Coord) : Prop := t.d = false ∧ ∃ n ∈ l, s.tileNode t = some n

theorem Built.congr {P Q : Coord → Prop} {st : St} (h : Built m nc s P st) (e : ∀ t, P t ↔ Q t) : Built m nc s Q st := by
  have : P = Q := funext fun t => propext (e t)
  exact this ▸ h

include H

theorem pi_loop (mh : Dim) : ∀ (rest done : List Nat) (st : St), s.inputs = done ++ rest → Built m nc s (PiTile s done) st →
    Pins m s done.length st.lyt → st.lyt.size = 2 + done.length → st.lyt.outputs = [] →
    Built m nc s (PiTile s s.inputs) (rest.foldl (stepPi s mh (conv m s)) st) ∧
      Pins m s s.inputs.length (rest.foldl (stepPi s mh (conv m s)) st).lyt ∧ (rest.foldl (stepPi s mh (conv m s)) st).lyt.outputs = [] := by
  intro rest
  induction rest with
  | nil =>
    intro done st e hB hP hs ho
    rw [List.append_nil] at e
    rw [e]
    exact ⟨hB, hP, ho⟩
  | cons n rest ih =>
    intro done st e hB hP hs ho
    have hmem : n ∈ s.inputs := by rw [e]; simp
    obtain ⟨t, ht, hn⟩ := H.placed n hmem
    have hN := H.node ht hn
    have hnd := H.inputs
    rw [e, List.nodup_append] at hnd
    have hnot : ¬ PiTile s done t := by
      rintro ⟨-, k, hk, hk'⟩
      rw [hn] at hk'
      injection hk' with hk'
      subst hk'
      exact hnd.2.2 _ hk _ (by simp) rfl
    have hocc : Occ s t := ⟨ht, n, hn⟩
    obtain ⟨a1, a2, a3, a4, a5, a6, a7, a8⟩ := createPi_placed mh hB.wf (t := conv m s t) rfl (hB.empty H hocc hnot)
    have hB' := hB.place H ht hn hnot a1 a2 a3 (by rw [a4, H.pi n hmem]) a5 (fun hc => absurd hmem hc)
    rw [List.foldl_cons]
    have est : stepPi s mh (conv m s) st n = ({ st with lyt := st.lyt.createPi mh (conv m s t) } : St).see (conv m s t) := by
      unfold stepPi
      rw [hN.2.1]
    rw [est]
    refine ih (done ++ [n]) _ (by rw [e]; simp) (hB'.congr ?_) ⟨?_, ?_⟩ ?_ ?_
    · intro t'
      unfold PiTile
      constructor
      · rintro (⟨h1, k, h2, h3⟩ | rfl)
        · exact ⟨h1, k, by simp [h2], h3⟩
        · exact ⟨ht, n, by simp, hn⟩
      · rintro ⟨h1, k, h2, h3⟩
        rw [List.mem_append, List.mem_singleton] at h2
        rcases h2 with h2 | rfl
        · exact Or.inl ⟨h1, k, h2, h3⟩
        · right
          have := (H.node h1 h3).2.1
          rw [← this, hN.2.1]
    · simp only [St.see]
      rw [a6, hP.inputs, hs]
      simp [List.range_succ]
    · intro i k hi hk
      simp only [St.see]
      rw [a2 _ rfl]
      rw [List.length_append, List.length_singleton] at hi
      by_cases hlt : i < done.length
      · have hne : conv m s (s.getTile k) ≠ conv m s t := by
          intro ee
          have hkm : k ∈ done := by
            rw [e, List.getElem?_append_left hlt] at hk
            exact List.mem_of_getElem? hk
          obtain ⟨t', ht', hk'⟩ := H.placed k (by rw [e]; simp [hkm])
          rw [(H.node ht' hk').2.1] at ee
          have := H.inj ⟨ht', k, hk'⟩ hocc ee
          subst this
          exact hnot ⟨ht, k, hkm, hk'⟩
        rw [if_neg hne]
        exact hP.pin i k hlt hk
      · have hi' : i = done.length := by omega
        subst hi'
        rw [e, List.getElem?_append_right (Nat.le_refl _)] at hk
        simp only [Nat.sub_self, List.getElem?_cons_zero, Option.some.injEq] at hk
        subst hk
        rw [hN.2.1, if_pos rfl, hs]
    · simp only [St.see]
      rw [a7, hs]
      simp
      omega
    · simp only [St.see]
      rw [a8, ho]

/-- Pins stay when a tile is placed that holds no input. -/
theorem Pins.place {lyt lyt' : State} (h : Pins m s s.inputs.length lyt) {t : Coord} {n : Nat} (ht : t.d = false) (hn : s.tileNode t = some n)
    (hi : n ∉ s.inputs) (hin : lyt'.inputs = lyt.inputs)
    (tile : ∀ k : Coord, k.d = false → lyt'.tileNode k = if k = conv m s t then some lyt.size else lyt.tileNode k) :
    Pins m s s.inputs.length lyt' := by
  refine ⟨by rw [hin, h.inputs], ?_⟩
  intro i k hi' hk
  have hkm := List.mem_of_getElem? hk
  obtain ⟨t', ht', hk'⟩ := H.placed k hkm
  rw [tile _ rfl, if_neg]
  · exact h.pin i k hi' hk
  · intro e
    rw [(H.node ht' hk').2.1] at e
    have := H.inj ⟨ht', k, hk'⟩ ⟨ht, n, hn⟩ e
    subst this
    rw [hn] at hk'
    injection hk' with hk'
    subst hk'
    exact hi hkm

theorem isPo_iff {t : Coord} {n : Nat} (ht : t.d = false) (hn : s.tileNode t = some n) : s.isPo n = true ↔ t ∈ s.outputs := by
  unfold State.isPo
  rw [List.any_eq_true]
  constructor
  · rintro ⟨p, hp, e⟩
    rw [beq_iff_eq] at e
    obtain ⟨hd, k, hk, -⟩ := H.po p hp
    have h1 := H.node hd hk
    rw [h1.1] at e
    subst e
    have h2 := H.node ht hn
    rw [← h2.2.1, h1.2.1]
    exact hp
  · intro hp
    exact ⟨t, hp, by rw [(H.node ht hn).1, beq_self_eq_true]⟩

theorem isEmpty_eq (t : Coord) (ht : t.d = false) : s.isEmptyTile t = true ↔ s.tileNode t = none :=
  Hexable.off.isEmpty_iff' H.wf ht

/-- The tiles placed by the loop over the tiles. -/
def InnerTile (s : State) (done : List Coord) (t : Coord) : Prop := PiTile s s.inputs t ∨ (Occ s t ∧ t ∈ done ∧ t ∉ s.outputs)

omit H in
theorem fanin_cases {l : List Coord} (h : l.length = 1 ∨ l.length = 2) : (∃ a, l = [a]) ∨ ∃ a b, l = [a, b] := by
  match l, h with
  | [a], _ => exact Or.inl ⟨a, rfl⟩
  | [a, b], _ => exact Or.inr ⟨a, b, rfl⟩

theorem tile_loop (mh : Dim) : ∀ (rest done : List Coord) (st : St), tiles m = done ++ rest → Built m nc s (InnerTile s done) st →
    Pins m s s.inputs.length st.lyt → st.lyt.outputs = [] →
    ∃ st', rest.foldlM (stepTile m (twoddwaveClocking .cart nc) s mh (conv m s)) st = some st' ∧ Built m nc s (InnerTile s (tiles m)) st' ∧
      Pins m s s.inputs.length st'.lyt ∧ st'.lyt.outputs = [] := by
  intro rest
  induction rest with
  | nil =>
    intro done st e hB hP ho
    rw [List.append_nil] at e
    exact ⟨st, rfl, e ▸ hB, hP, ho⟩
  | cons t rest ih =>
    intro done st e hB hP ho
    have htm : t ∈ tiles m := by rw [e]; simp
    have ht : t.d = false := (mem_tiles.1 htm).1
    have hnd := tiles_nodup m
    rw [e, List.nodup_append] at hnd
    have hso := tiles_sorted m
    rw [e, List.pairwise_append] at hso
    have htd : t ∉ done := fun hc => hnd.2.2 _ hc _ (by simp) rfl
    have step : ∀ st1, stepTile m (twoddwaveClocking .cart nc) s mh (conv m s) st t = some st1 → Built m nc s (InnerTile s (done ++ [t])) st1 →
        Pins m s s.inputs.length st1.lyt → st1.lyt.outputs = [] →
        ∃ st', (t :: rest).foldlM (stepTile m (twoddwaveClocking .cart nc) s mh (conv m s)) st = some st' ∧
          Built m nc s (InnerTile s (tiles m)) st' ∧ Pins m s s.inputs.length st'.lyt ∧ st'.lyt.outputs = [] := by
      intro st1 h1 h2 h3 h4
      rw [List.foldlM_cons, h1]
      exact ih (done ++ [t]) st1 (by rw [e]; simp) h2 h3 h4
    cases hn : s.tileNode t with
    | none =>
      refine step st ?_ (hB.congr ?_) hP ho
      · unfold stepTile
        rw [if_pos ((isEmpty_eq H t ht).2 hn)]
      · intro t'
        unfold InnerTile
        rw [List.mem_append, List.mem_singleton]
        constructor
        · rintro (h | ⟨h1, h2, h3⟩)
          · exact Or.inl h
          · exact Or.inr ⟨h1, Or.inl h2, h3⟩
        · rintro (h | ⟨h1, h2 | rfl, h3⟩)
          · exact Or.inl h
          · exact Or.inr ⟨h1, h2, h3⟩
          · obtain ⟨-, n, hn'⟩ := h1
            rw [hn] at hn'
            cases hn'
    | some n =>
      have hN := H.node ht hn
      have hocc : Occ s t := ⟨ht, n, hn⟩
      have hne : ¬ s.isEmptyTile t = true := by
        rw [isEmpty_eq H t ht, hn]
        simp
      by_cases hi : n ∈ s.inputs
      · refine step st ?_ (hB.congr ?_) hP ho
        · unfold stepTile
          rw [if_neg hne]
          simp only [hN.1]
          rw [if_pos (by simp [State.isPi, hi])]
        · intro t'
          unfold InnerTile
          rw [List.mem_append, List.mem_singleton]
          constructor
          · rintro (h | ⟨h1, h2, h3⟩)
            · exact Or.inl h
            · exact Or.inr ⟨h1, Or.inl h2, h3⟩
          · rintro (h | ⟨h1, h2 | rfl, h3⟩)
            · exact Or.inl h
            · exact Or.inr ⟨h1, h2, h3⟩
            · exact Or.inl ⟨ht, n, hi, hn⟩
      · have hpi : ¬ s.isPi n = true := by simp [State.isPi, hi]
        have hPit : ¬ PiTile s s.inputs t := by
          rintro ⟨-, k, hk, hk'⟩
          rw [hn] at hk'
          injection hk' with hk'
          subst hk'
          exact hi hk
        have hfan : ∀ c ∈ s.fanins m .cart (twoddwaveClocking .cart nc) true n, InnerTile s done c := by
          intro c hc
          obtain ⟨hoc, hfl, hno⟩ := H.faninOcc ht hn hi hc
          obtain ⟨hd, k, hk⟩ := hoc
          have hcm : c ∈ tiles m := mem_tiles.2 (H.bounds c k hd hk)
          refine Or.inr ⟨⟨hd, k, hk⟩, ?_, hno⟩
          rw [e, List.mem_append, List.mem_cons] at hcm
          have hlt : c.x + c.y < t.x + t.y := by
            unfold Flow at hfl
            omega
          rcases hcm with h | rfl | h
          · exact h
          · omega
          · have := (List.pairwise_cons.1 hso.2.1).1 c h
            omega
        by_cases hpo : t ∈ s.outputs
        · obtain ⟨-, n', hn', -, -, hl⟩ := H.po t hpo
          rw [hn] at hn'
          injection hn' with hn'
          subst hn'
          rcases fanin_cases (Or.inl hl) with ⟨a, ea⟩ | ⟨a, b, ea⟩
          · refine step (st.see (conv m s t)) ?_ ((hB.see hocc).congr ?_) hP ho
            · unfold stepTile
              rw [if_neg hne]
              simp only [hN.1]
              rw [if_neg hpi, ea]
              simp only
              rw [if_pos ((isPo_iff H ht hn).2 hpo)]
            · intro t'
              unfold InnerTile
              rw [List.mem_append, List.mem_singleton]
              constructor
              · rintro (h | ⟨h1, h2, h3⟩)
                · exact Or.inl h
                · exact Or.inr ⟨h1, Or.inl h2, h3⟩
              · rintro (h | ⟨h1, h2 | rfl, h3⟩)
                · exact Or.inl h
                · exact Or.inr ⟨h1, h2, h3⟩
                · exact absurd hpo h3
          · rw [ea] at hl
            simp at hl
        · have hnot : ¬ InnerTile s done t := by
            rintro (h | ⟨-, h, -⟩)
            · exact hPit h
            · exact htd h
          have hcongr : ∀ t', (InnerTile s done t' ∨ t' = t) ↔ InnerTile s (done ++ [t]) t' := by
            intro t'
            unfold InnerTile
            rw [List.mem_append, List.mem_singleton]
            constructor
            · rintro ((h | ⟨h1, h2, h3⟩) | rfl)
              · exact Or.inl h
              · exact Or.inr ⟨h1, Or.inl h2, h3⟩
              · exact Or.inr ⟨hocc, Or.inr rfl, hpo⟩
            · rintro (h | ⟨h1, h2 | rfl, h3⟩)
              · exact Or.inl (Or.inl h)
              · exact Or.inl (Or.inr ⟨h1, h2, h3⟩)
              · exact Or.inr rfl
          have hpo' : ¬ s.isPo n = true := by rw [isPo_iff H ht hn]; exact hpo
          have hsig : ∀ l : List Coord, (∀ c ∈ l, InnerTile s done c) → l.map (signal (conv m s) st.lyt) = l.map (conv m s) := by
            intro l hl
            exact List.map_congr_left (fun c hc => hB.signal H (hl c hc))
          obtain ⟨hp, hsz, hout⟩ := createGate_placed (m := mh) hB.wf (s.nodes n).fn
            ((s.fanins m .cart (twoddwaveClocking .cart nc) true n).map (conv m s)) (t := conv m s t) rfl (hB.empty H hocc hnot)
          have hB' := (hB.place H ht hn hnot hp.wf hp.tile hp.old hp.fn hp.children (fun _ => rfl)).congr hcongr
          have hP' := hP.place H ht hn hi hp.inputs hp.tile
          rw [← hsig _ hfan] at hB' hP' hout
          rcases fanin_cases (H.fanin t n ht hn hi).1 with ⟨a, ea⟩ | ⟨a, b, ea⟩
          · refine step _ ?_ hB' hP' (by simp only [St.see]; rw [hout, ho])
            unfold stepTile
            rw [if_neg hne]
            simp only [hN.1]
            rw [if_neg hpi, ea]
            simp only
            rw [if_neg hpo', if_pos (H.unary t n ht hn hi (by rw [ea]; rfl))]
            rfl
          · refine step _ ?_ hB' hP' (by simp only [St.see]; rw [hout, ho])
            unfold stepTile
            rw [if_neg hne]
            simp only [hN.1]
            rw [if_neg hpi, ea]
            rfl

/-- The tiles placed by the loop over the outputs. -/
def DoneTile (s : State) (done : List Coord) (t : Coord) : Prop := Occ s t ∧ (t ∉ s.outputs ∨ t ∈ done)

theorem po_loop (mh : Dim) : ∀ (rest done : List Coord) (st : St), s.outputs = done ++ rest → Built m nc s (DoneTile s done) st →
    Pins m s s.inputs.length st.lyt → st.lyt.outputs = done.map (conv m s) →
    ∃ st', rest.foldlM (stepPo m (twoddwaveClocking .cart nc) s mh (conv m s)) st = some st' ∧ Built m nc s (DoneTile s s.outputs) st' ∧
      Pins m s s.inputs.length st'.lyt ∧ st'.lyt.outputs = s.outputs.map (conv m s) := by
  intro rest
  induction rest with
  | nil =>
    intro done st e hB hP ho
    rw [List.append_nil] at e
    exact ⟨st, rfl, e ▸ hB, hP, e ▸ ho⟩
  | cons t rest ih =>
    intro done st e hB hP ho
    have htm : t ∈ s.outputs := by rw [e]; simp
    obtain ⟨ht, n, hn, hi, hfn, hl⟩ := H.po t htm
    have hN := H.node ht hn
    have hocc : Occ s t := ⟨ht, n, hn⟩
    have hnd := H.outputs
    rw [e, List.nodup_append] at hnd
    have hnot : ¬ DoneTile s done t := by
      rintro ⟨-, h | h⟩
      · exact h htm
      · exact hnd.2.2 _ h _ (by simp) rfl
    rcases fanin_cases (Or.inl hl) with ⟨a, ea⟩ | ⟨a, b, ea⟩
    · obtain ⟨hoc, -, hno⟩ := H.faninOcc ht hn hi (c := a) (by rw [ea]; simp)
      have hsig : signal (conv m s) st.lyt a = conv m s a := hB.signal H ⟨hoc, Or.inl hno⟩
      obtain ⟨hp, hsz, hout⟩ := createPo_placed (m := mh) hB.wf (conv m s a) (t := conv m s t) rfl (hB.empty H hocc hnot)
      have hB' := hB.place H ht hn hnot hp.wf hp.tile hp.old (by rw [hp.fn, hfn]) hp.children (fun _ => by rw [ea]; rfl)
      have hP' := hP.place H ht hn hi hp.inputs hp.tile
      have est : stepPo m (twoddwaveClocking .cart nc) s mh (conv m s) st t =
          some (({ st with lyt := st.lyt.createPo mh (conv m s a) (conv m s t) } : St).see (conv m s t)) := by
        unfold stepPo
        simp only [hN.1, hN.2.1]
        rw [ea]
        simp only
        rw [hsig]
      rw [List.foldlM_cons, est]
      refine ih (done ++ [t]) _ (by rw [e]; simp) (hB'.congr ?_) hP' ?_
      · intro t'
        unfold DoneTile
        rw [List.mem_append, List.mem_singleton]
        constructor
        · rintro (⟨h1, h2 | h2⟩ | rfl)
          · exact ⟨h1, Or.inl h2⟩
          · exact ⟨h1, Or.inr (Or.inl h2)⟩
          · exact ⟨hocc, Or.inr (Or.inr rfl)⟩
        · rintro ⟨h1, h2 | h2 | h2⟩
          · exact Or.inl ⟨h1, Or.inl h2⟩
          · exact Or.inl ⟨h1, Or.inr h2⟩
          · exact Or.inr h2
      · simp only [St.see]
        rw [hout, ho]
        simp
    · rw [ea] at hl
      simp at hl

/-- The whole run. -/
theorem run : ∃ m' s', hexagonalization m (twoddwaveClocking .cart nc) s = some (m', s') ∧ m'.Z = m.Z ∧
    Built m nc s (Occ s) ⟨s', m'.X, m'.Y⟩ ∧ Pins m s s.inputs.length s' ∧ s'.outputs = s.outputs.map (conv m s) := by
  have h0 : Built m nc s (PiTile s []) ⟨init, 0, 0⟩ := by
    refine ⟨WF.init, ?_, ?_, ?_, ?_, Or.inl rfl, Or.inl rfl⟩
    · rintro t ⟨-, n, hn, -⟩
      cases hn
    · intro k hk j hj
      exfalso
      have := (WF.init.live k j hj)
      have h2 := WF.init.lt k j hj
      have := this.1 (Nat.le_of_lt_succ h2)
      rw [hk] at this
      cases this
    · rintro t n ⟨-, k, hk, -⟩
      cases hk
    · rintro t ⟨-, k, hk, -⟩
      cases hk
  let mh : Dim := ⟨(toHexX (m.Y + 1) ⟨m.X, 0, 0, false⟩).toNat, m.X + m.Y, m.Z⟩
  obtain ⟨b1, b2, b3⟩ := pi_loop H mh s.inputs [] ⟨init, 0, 0⟩ rfl h0 ⟨rfl, fun i n hi => by simp at hi⟩ rfl rfl
  obtain ⟨st1, e1, c1, c2, c3⟩ := tile_loop H mh (tiles m) [] _ rfl (b1.congr (by
    intro t
    unfold InnerTile
    simp)) b2 b3
  obtain ⟨st2, e2, d1, d2, d3⟩ := po_loop H mh s.outputs [] st1 rfl (c1.congr (by
    intro t
    unfold InnerTile DoneTile
    constructor
    · rintro (⟨h1, n, h2, h3⟩ | ⟨h1, -, h3⟩)
      · refine ⟨⟨h1, n, h3⟩, Or.inl ?_⟩
        intro hc
        obtain ⟨-, n', hn', hi, -⟩ := H.po t hc
        rw [h3] at hn'
        injection hn' with hn'
        subst hn'
        exact hi h2
      · exact ⟨h1, Or.inl h3⟩
    · rintro ⟨h1, h2 | h2⟩
      · obtain ⟨hd, n, hn⟩ := h1
        exact Or.inr ⟨⟨hd, n, hn⟩, mem_tiles.2 (H.bounds t n hd hn), h2⟩
      · cases h2)) c2 c3
  refine ⟨⟨st2.xmax, st2.ymax, m.Z⟩, st2.lyt, ?_, rfl, d1.congr ?_, d2, d3⟩
  · have f1 : (tiles m).foldlM (stepTile m (twoddwaveClocking .cart nc) s mh (hexTile (m.Y + 1) (getOffset m s)))
        (s.inputs.foldl (stepPi s mh (hexTile (m.Y + 1) (getOffset m s))) ⟨init, 0, 0⟩) = some st1 := e1
    have f2 : s.outputs.foldlM (stepPo m (twoddwaveClocking .cart nc) s mh (hexTile (m.Y + 1) (getOffset m s))) st1 = some st2 := e2
    unfold hexagonalization
    simp only
    rw [f1]
    simp only
    rw [f2]
  · intro t
    unfold DoneTile
    exact ⟨fun h => h.1, fun h => ⟨h, (Classical.em (t ∈ s.outputs)).symm⟩⟩

end

end Verif.PhysicalDesign.Hexa
