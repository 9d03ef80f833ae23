import Verif.PhysicalDesign.OrthoMain
import Verif.PhysicalDesign.LayoutFn
import Verif.Clocking.Lemmas
import Verif.Layouts.CartesianProps

/-!
# From values on tiles to the function of the layout
-/
namespace Verif.PhysicalDesign.Ortho

open Verif.Layouts Verif.Clocking Verif.GateLevel Verif.Networks

theorem nbr_fanin {m : Dim} (hZ : m.Z = 1) {c t : Coord} (hc : InBounds m c) (ht : InBounds m t) (h : Nbr c t) (nc : NumClks) :
    (Topo.isAdjacentElevationOf .cart m t c && (!true || isIncomingClocked (twoddwaveClocking .cart nc) t c)) = true := by
  obtain ⟨hcd, hcz, hn⟩ := h
  have htd := ht.1
  have htz := ht.2.2.2
  have hne : t ≠ c := by rintro rfl; omega
  have hclk : isIncomingClocked (twoddwaveClocking .cart nc) t c = true := by
    unfold isIncomingClocked
    rw [if_neg hne, beq_iff_eq]
    have e : ∀ k, (twoddwaveClocking .cart nc).clock k = (k.x + k.y) % nc.val := by
      intro k
      rw [← fn_twoddwave .cart]
      unfold Scheme.clock
      cases nc <;> rfl
    have hnum : (twoddwaveClocking .cart nc).numClocks = nc.val := by cases nc <;> rfl
    rw [e, e, hnum]
    cases nc <;> simp only [NumClks.val] <;> omega
  have hadj : Topo.isAdjacentElevationOf .cart m t c = true := by
    unfold Topo.isAdjacentElevationOf Topo.isAdjacentOf
    simp only [Bool.or_eq_true]
    have key : ∀ t' : Coord, InBounds m t' → t'.x = t.x → t'.y = t.y → t'.z = c.z → Cart.isAdjacentOf m t' c = true := by
      intro t' h1 h2 h3 h4
      rw [(C07_is_adjacent m t' c h1 hc).1]
      refine ⟨h4, ?_⟩
      rw [h2, h3]
      omega
    by_cases h1 : t.z = c.z
    · exact .inl (.inl (key t ht rfl rfl h1))
    · by_cases h2 : t.z = 0
      · refine .inl (.inr (key _ ?_ ?_ ?_ ?_)) <;> simp only [Cart.above, h2, hZ] <;> (try simp [InBounds, htd, hZ]) <;>
          first
          | exact ⟨ht.2.1, ht.2.2.1⟩
          | omega
      · refine .inr (key _ ?_ ?_ ?_ ?_) <;> simp only [Cart.below, if_neg h2] <;> (try simp only [InBounds, htd, hZ]) <;>
          first
          | exact ⟨trivial, ht.2.1, ht.2.2.1, by omega⟩
          | exact ⟨rfl, ht.2.1, ht.2.2.1, by omega⟩
          | omega
  rw [hadj, hclk]
  rfl

section
variable {N : Ntk} {tab : Nat → List Bool → Bool} {m : Dim} {pos : Nat → Coord} {G : Grid} {done : List Nat} {s : State}

theorem OInv.inBounds (h : OInv N tab m pos G done [] s) (hZ : m.Z = 1) {t : Coord} {n : Nat} (htd : t.d = false)
    (ht : s.tileNode t = some n) : InBounds m t := by
  have hz : t.z ≤ 1 := by
    by_contra hc
    rw [h.rep.z2 t htd (by omega)] at ht
    cases ht
  obtain ⟨x, y, z, d⟩ := t
  simp only at htd hz
  subst htd
  have hg : G x y ≠ .none := by
    intro hg
    have h0 := (h.rep.z0 x y).1 hg
    have h1 := h.rep.z1 x y (by rw [hg]; simp)
    have : z = 0 ∨ z = 1 := by omega
    rcases this with rfl | rfl
    · rw [h0] at ht; cases ht
    · rw [h1] at ht; cases ht
  obtain ⟨h1, h2⟩ := h.bounds x y hg
  exact ⟨rfl, h1, h2, by simp only; omega⟩

theorem SVal.occupied {K : Nat} {a : Nat → Bool} {t : Coord} {b : Bool} (h : SVal tab K s a t b) :
    t.d = false ∧ ∃ n, s.tileNode t = some n := by
  cases h with
  | pi _ k ht hn => exact ⟨ht, _, hn⟩
  | one _ n c b ht hn => exact ⟨ht, _, hn⟩
  | two _ n c c' b b' ht hn => exact ⟨ht, _, hn⟩

theorem OInv.tile_of (h : OInv N tab m pos G done [] s) {t : Coord} {n : Nat} (ht : s.tileNode t = some n) :
    s.getTile (s.getNode t) = t ∧ s.getNode t = n ∧ s.getTile n = t := by
  have h1 : s.getNode t = n := by simp [State.getNode, ht]
  have h2 : s.getTile n = t := by simp [State.getTile, (h.rep.wf.inv _ _).1 ht]
  exact ⟨by rw [h1, h2], h1, h2⟩

theorem OInv.toVal (h : OInv N tab m pos G done [] s) (hZ : m.Z = 1) (nc : NumClks) {a : Nat → Bool} {t : Coord} {b : Bool}
    (hv : SVal tab N.pis.length s a t b) :
    Val tab m .cart (twoddwaveClocking .cart nc) s a (s.getNode t) b := by
  have hinp : ∀ n, 2 + N.pis.length ≤ n → n ∉ s.inputs := by
    intro n hn hm
    rw [h.inputs] at hm
    simp at hm
    omega
  induction hv with
  | pi t k ht hn hk =>
    rw [(h.tile_of hn).2.1]
    refine .input k _ ?_
    rw [h.inputs]
    simp [hk]
  | one t n c b ht hn hk hc hb hs ih =>
    obtain ⟨-, e1, e2⟩ := h.tile_of hn
    obtain ⟨hcd, j, hj⟩ := hs.occupied
    obtain ⟨e3, -, -⟩ := h.tile_of hj
    have hin := nbr_fanin hZ (h.inBounds hZ hcd hj) (h.inBounds hZ ht hn) hb nc
    have hf : s.fanins m .cart (twoddwaveClocking .cart nc) true n = [c] := by
      unfold State.fanins
      rw [if_neg (by omega), hc]
      simp only [e2]
      rw [List.filter_cons, e3, if_pos hin]
      simp [e3]
    rw [e1]
    refine .gate n [b] (by omega) (hinp n hk) (by rw [hf]; rfl) ?_
    intro i hi
    have : i = 0 := by simpa using hi
    subst this
    rw [hf]
    exact ih
  | two t n c c' b b' ht hn hk hc hb hb' hs hs' ih ih' =>
    obtain ⟨-, e1, e2⟩ := h.tile_of hn
    obtain ⟨hcd, j, hj⟩ := hs.occupied
    obtain ⟨e3, -, -⟩ := h.tile_of hj
    obtain ⟨hcd', j', hj'⟩ := hs'.occupied
    obtain ⟨e3', -, -⟩ := h.tile_of hj'
    have hin := nbr_fanin hZ (h.inBounds hZ hcd hj) (h.inBounds hZ ht hn) hb nc
    have hin' := nbr_fanin hZ (h.inBounds hZ hcd' hj') (h.inBounds hZ ht hn) hb' nc
    have hf : s.fanins m .cart (twoddwaveClocking .cart nc) true n = [c, c'] := by
      unfold State.fanins
      rw [if_neg (by omega), hc]
      simp only [e2]
      rw [List.filter_cons, e3, if_pos hin, List.filter_cons, e3', if_pos hin']
      simp [e3, e3']
    rw [e1]
    refine .gate n [b, b'] (by omega) (hinp n hk) (by rw [hf]; rfl) ?_
    intro i hi
    have : i = 0 ∨ i = 1 := by simp at hi; omega
    rw [hf]
    rcases this with rfl | rfl
    · exact ih
    · exact ih'

end

end Verif.PhysicalDesign.Ortho
