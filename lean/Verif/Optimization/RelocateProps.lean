import Verif.Optimization.Relocate
import Mathlib.Data.List.Basic
import Mathlib.Data.List.Range
import Mathlib.Data.List.Perm.Subperm
import Mathlib.Data.List.ProdSigma
import Mathlib.Order.WellFounded
import Mathlib.Tactic.SplitIfs

/-!
# C103: relocation of gates

## Specification
-/
namespace Verif.Relocate

/-- A position is better if it is on an earlier diagonal, or on the same diagonal in a higher row. -/
def Better (p q : Tile) : Prop := p.1 + p.2 < q.1 + q.2 ∨ (p.1 + p.2 = q.1 + q.2 ∧ p.2 < q.2)

/-- The order in which positions are tried: by diagonals and, on each diagonal, from the left to the right. -/
def Earlier (a b : Tile) : Prop := a.1 + a.2 < b.1 + b.2 ∨ (a.1 + a.2 = b.1 + b.2 ∧ a.1 < b.1)

/-- Positions a gate may be moved to: in the layout, better than the old one, not to the left of or above a fan-in; inputs stay
at the left or upper border, and outputs move to another diagonal, not to the left of and above the other gates. -/
structure Allowed (J : Job) (p : Tile) : Prop where
  inX : p.1 ≤ J.X
  inY : p.2 ≤ J.Y
  better : Better p J.old
  fanins : ∀ f ∈ J.fanins, f.1 ≤ p.1 ∧ f.2 ≤ p.2
  input : J.isPi = true → p.1 = 0 ∨ p.2 = 0
  output : J.isPo = true → p.1 + p.2 < J.old.1 + J.old.2 ∧ (J.maxNonPo.1 ≤ p.1 ∨ J.maxNonPo.2 ≤ p.2)

/-! ## Lemmas -/

theorem foldl_max_le (g : Tile → Nat) : ∀ (l : List Tile) (a b : Nat),
    l.foldl (fun m f => max m (g f)) a ≤ b ↔ a ≤ b ∧ ∀ f ∈ l, g f ≤ b
  | [], a, b => by simp
  | x :: l, a, b => by
    rw [List.foldl_cons, foldl_max_le g l]
    simp only [List.mem_cons, forall_eq_or_imp]
    rw [Nat.max_le, and_assoc]

theorem candidate_iff (J : Job) (t : Tile) : J.candidate t = true ↔ Allowed J t ∨
    (t = J.old ∧ t.1 ≤ J.X ∧ t.2 ≤ J.Y ∧ (∀ f ∈ J.fanins, f.1 ≤ t.1 ∧ f.2 ≤ t.2) ∧ (J.isPi = true → t.1 = 0 ∨ t.2 = 0) ∧
      J.isPo = false) := by
  have hx := foldl_max_le Prod.fst J.fanins 0 t.1
  have hy := foldl_max_le Prod.snd J.fanins 0 t.2
  have hf : (∀ f ∈ J.fanins, f.1 ≤ t.1 ∧ f.2 ≤ t.2) ↔ J.minX ≤ t.1 ∧ J.minY ≤ t.2 := by
    unfold Job.minX Job.minY
    rw [hx, hy]
    exact ⟨fun h => ⟨⟨Nat.zero_le _, fun f hf => (h f hf).1⟩, ⟨Nat.zero_le _, fun f hf => (h f hf).2⟩⟩,
      fun h f hf => ⟨h.1.2 f hf, h.2.2 f hf⟩⟩
  have he : t = J.old ↔ t.1 = J.old.1 ∧ t.2 = J.old.2 := Prod.ext_iff
  have ha : Allowed J t ↔ t.1 ≤ J.X ∧ t.2 ≤ J.Y ∧ Better t J.old ∧ (J.minX ≤ t.1 ∧ J.minY ≤ t.2) ∧
      (J.isPi = true → t.1 = 0 ∨ t.2 = 0) ∧
      (J.isPo = true → t.1 + t.2 < J.old.1 + J.old.2 ∧ (J.maxNonPo.1 ≤ t.1 ∨ J.maxNonPo.2 ≤ t.2)) :=
    ⟨fun h => ⟨h.inX, h.inY, h.better, hf.1 h.fanins, h.input, h.output⟩,
      fun h => ⟨h.1, h.2.1, h.2.2.1, hf.2 h.2.2.2.1, h.2.2.2.2.1, h.2.2.2.2.2⟩⟩
  rw [ha, hf, he]
  unfold Job.candidate Better
  cases J.isPi <;> cases J.isPo <;> simp <;> omega

theorem inner_append (J : Job) : ∀ (a b : List Tile) (s : St), J.inner (a ++ b) s = J.inner b (J.inner a s)
  | [], _, _ => rfl
  | t :: a, b, s => by
    rw [List.cons_append, Job.inner, Job.inner]
    split_ifs with h
    · cases b with
      | nil => rfl
      | cons u b => rw [Job.inner, if_pos h]
    · exact inner_append J a b _

theorem outer_eq (J : Job) : ∀ (ks : List Nat) (s : St), J.outer ks s = J.inner (ks.flatMap diagonal) s
  | [], _ => rfl
  | k :: ks, s => by
    rw [List.flatMap_cons, inner_append, Job.outer]
    split_ifs with h
    · have : J.stop (J.inner (diagonal k) s) = true := by unfold Job.stop; rw [h]; rfl
      cases ks.flatMap diagonal with
      | nil => rfl
      | cons t l => rw [Job.inner, if_pos this]
    · exact outer_eq J ks _

/-- The position was tried without success, or could not be. -/
def Tried (J : Job) (t : Tile) : Prop := J.candidate t = true → J.free t = true → t = J.old ∨ ∃ n, J.routes n t = false

theorem inner_spec (J : Job) : ∀ (l : List Tile) (s : St), s.moved = false → s.back = false →
    (s.cur = J.old ∨ ∃ n, J.routes n s.cur = false) →
    ((J.inner l s).moved = true → ∃ pre post, l = pre ++ (J.inner l s).cur :: post ∧ (∀ t ∈ pre, Tried J t) ∧
      J.candidate (J.inner l s).cur = true ∧ J.free (J.inner l s).cur = true ∧
      ((∃ n, J.routes n (J.inner l s).cur = true) ∧ (J.inner l s).back = ((J.inner l s).cur == J.old))) ∧
    ((J.inner l s).moved = false → (J.inner l s).back = false ∧ ∃ pre post, l = pre ++ post ∧ (∀ t ∈ pre, Tried J t) ∧
      (J.inner l s).attempts ≤ s.attempts + (pre.filter J.candidate).length ∧
      (post = [] ∨ (J.limit ≤ (J.inner l s).attempts ∧ J.isPo = false) ∨ (J.inner l s).timedOut = true)) ∧
    (J.isPo = false → s.attempts ≤ J.limit → (J.inner l s).attempts ≤ J.limit)
  | [], s, hm, hb, hc => by
    refine ⟨fun h => ?_, fun _ => ⟨hb, [], [], rfl, by simp, by simp [Job.inner], Or.inl rfl⟩, fun _ h => h⟩
    rw [Job.inner, hm] at h
    cases h
  | t :: l, s, hm, hb, hc => by
    rw [Job.inner]
    by_cases hs : J.stop s = true
    · rw [if_pos hs]
      refine ⟨fun h => ?_, fun _ => ⟨hb, [], t :: l, rfl, by simp, by simp, Or.inr ?_⟩, fun _ h => h⟩
      · rw [hm] at h; cases h
      · unfold Job.stop at hs
        rw [hm] at hs
        simpa using hs
    · rw [if_neg hs]
      have hlim : J.isPo = false → s.attempts < J.limit := by
        intro hp
        unfold Job.stop at hs
        rw [hm, hp] at hs
        simp at hs
        omega
      have skip : ∀ s' : St, s'.moved = false → s'.back = false → (s'.cur = J.old ∨ ∃ n, J.routes n s'.cur = false) →
          Tried J t → s'.attempts ≤ s.attempts + ([t].filter J.candidate).length →
          (J.isPo = false → s'.attempts ≤ J.limit) →
          ((J.inner l s').moved = true → ∃ pre post, t :: l = pre ++ (J.inner l s').cur :: post ∧ (∀ t ∈ pre, Tried J t) ∧
            J.candidate (J.inner l s').cur = true ∧ J.free (J.inner l s').cur = true ∧
            (∃ n, J.routes n (J.inner l s').cur = true) ∧ (J.inner l s').back = ((J.inner l s').cur == J.old)) ∧
          ((J.inner l s').moved = false → (J.inner l s').back = false ∧ ∃ pre post, t :: l = pre ++ post ∧ (∀ t ∈ pre, Tried J t) ∧
            (J.inner l s').attempts ≤ s.attempts + (pre.filter J.candidate).length ∧
            (post = [] ∨ (J.limit ≤ (J.inner l s').attempts ∧ J.isPo = false) ∨ (J.inner l s').timedOut = true)) ∧
          (J.isPo = false → s.attempts ≤ J.limit → (J.inner l s').attempts ≤ J.limit) := by
        intro s' h1 h2 h3 h4 h5 h6
        obtain ⟨i1, i2, i3⟩ := inner_spec J l s' h1 h2 h3
        refine ⟨fun h => ?_, fun h => ?_, fun hp _ => i3 hp (h6 hp)⟩
        · obtain ⟨pre, post, e, h7, h8⟩ := i1 h
          refine ⟨t :: pre, post, by rw [List.cons_append, ← e], ?_, h8⟩
          intro u hu
          rcases List.mem_cons.1 hu with rfl | hu
          · exact h4
          · exact h7 u hu
        · obtain ⟨hb', pre, post, e, h7, h8, h9⟩ := i2 h
          refine ⟨hb', t :: pre, post, by rw [List.cons_append, ← e], ?_, ?_, h9⟩
          · intro u hu
            rcases List.mem_cons.1 hu with rfl | hu
            · exact h4
            · exact h7 u hu
          · rw [show t :: pre = [t] ++ pre from rfl, List.filter_append, List.length_append]
            omega
      unfold Job.visit
      dsimp only
      by_cases hcand : J.candidate t = true
      · rw [if_pos hcand]
        unfold Job.check
        dsimp only
        by_cases hfree : (J.free t && t != s.cur) = true
        · rw [if_pos hfree]
          rw [Bool.and_eq_true] at hfree
          by_cases hr : J.routes s.attempts t = true
          · rw [if_pos hr]
            have hin : ∀ s' : St, s'.moved = true → J.inner l s' = s' := by
              intro s' h'
              cases l with
              | nil => rfl
              | cons u l => rw [Job.inner, if_pos (by unfold Job.stop; rw [h']; rfl)]
            rw [hin _ rfl]
            exact ⟨fun _ => ⟨[], l, rfl, by simp, hcand, hfree.1, ⟨_, hr⟩, rfl⟩, ⟨fun h => Bool.noConfusion h, fun hp _ => hlim hp⟩⟩
          · rw [if_neg hr]
            rw [Bool.not_eq_true] at hr
            refine skip _ hm hb (Or.inr ⟨_, hr⟩) (fun _ _ => Or.inr ⟨_, hr⟩) ?_ (fun hp => hlim hp)
            simp [hcand]
        · rw [if_neg hfree]
          refine skip _ hm hb hc ?_ (by simp) (fun hp => (hlim hp).le)
          intro _ hf
          have : t = s.cur := by simpa [hf] using hfree
          rw [this]
          exact hc
      · rw [if_neg hcand]
        exact skip _ hm hb hc (fun h => absurd h hcand) (by simp) (fun hp => (hlim hp).le)

theorem mem_diagonals (n : Nat) (t : Tile) : t ∈ (List.range n).flatMap diagonal ↔ t.1 + t.2 < n := by
  unfold diagonal
  simp only [List.mem_flatMap, List.mem_range, List.mem_map]
  constructor
  · rintro ⟨k, hk, x, hx, rfl⟩
    dsimp only
    omega
  · intro h
    exact ⟨t.1 + t.2, h, t.1, by omega, by ext <;> simp⟩

theorem diagonals_pairwise (n : Nat) : ((List.range n).flatMap diagonal).Pairwise Earlier := by
  rw [List.pairwise_flatMap]
  constructor
  · intro k _
    unfold diagonal
    rw [List.pairwise_map]
    refine List.Pairwise.imp_of_mem ?_ (List.pairwise_lt_range (n := k + 1))
    intro a b ha hb hab
    rw [List.mem_range] at ha hb
    right
    dsimp only
    omega
  · refine List.Pairwise.imp ?_ (List.pairwise_lt_range (n := n))
    intro a b hab x hx y hy
    unfold diagonal at hx hy
    obtain ⟨u, hu, rfl⟩ := List.mem_map.1 hx
    obtain ⟨v, hv, rfl⟩ := List.mem_map.1 hy
    rw [List.mem_range] at hu hv
    left
    dsimp only
    omega

theorem candidates_le (J : Job) (n : Nat) :
    (((List.range n).flatMap diagonal).filter J.candidate).length ≤ (J.X + 1) * (J.Y + 1) := by
  have hn : (((List.range n).flatMap diagonal).filter J.candidate).Nodup := by
    refine List.Pairwise.sublist List.filter_sublist ((diagonals_pairwise n).imp ?_)
    rintro a b h rfl
    rcases h with h | h <;> omega
  have hs : ((List.range n).flatMap diagonal).filter J.candidate ⊆
      (List.range (J.X + 1)).product (List.range (J.Y + 1)) := by
    intro t ht
    have := (candidate_iff J t).1 (List.mem_filter.1 ht).2
    have h1 : t.1 ≤ J.X ∧ t.2 ≤ J.Y := by
      rcases this with h | h
      · exact ⟨h.inX, h.inY⟩
      · exact ⟨h.2.1, h.2.2.1⟩
    have : (t.1, t.2) ∈ (List.range (J.X + 1)).product (List.range (J.Y + 1)) := by
      rw [List.pair_mem_product, List.mem_range, List.mem_range]
      omega
    exact this
  have := (List.subperm_of_subset hn hs).length_le
  have hp := List.length_product (List.range (J.X + 1)) (List.range (J.Y + 1))
  rw [List.length_range, List.length_range] at hp
  exact le_trans this (le_of_eq hp)

theorem search_eq (J : Job) (b : Bool) : J.search b =
    J.inner ((List.range (J.X + J.Y + 1)).flatMap diagonal) ⟨J.old, 0, false, false, b, 0⟩ := outer_eq J _ _

theorem improve_true {J : Job} {b : Bool} {p : Tile} (h : J.improve b = (p, true)) :
    J.direct = false ∧ (J.search b).moved = true ∧ (J.search b).back = false ∧ (J.search b).cur = p := by
  unfold Job.improve at h
  dsimp only at h
  split_ifs at h with h1 h2 h3
  · cases h
  · cases h
  · rw [Bool.not_eq_true] at h1 h2
    exact ⟨h1, h3, h2, by simpa using h⟩
  · cases h

/-! ## Theorems -/

/-- C103. If a gate is reported as moved, its new position is a free one it may be moved to and from which routing succeeded. -/
theorem C103_allowed (J : Job) (b : Bool) (p : Tile) (h : J.improve b = (p, true)) :
    Allowed J p ∧ J.free p = true ∧ ∃ n, J.routes n p = true := by
  obtain ⟨_, hm, hb, rfl⟩ := improve_true h
  rw [search_eq] at hm hb ⊢
  obtain ⟨_, _, _, _, hc, hf, hr, hk⟩ := (inner_spec J _ ⟨J.old, 0, false, false, b, 0⟩ rfl rfl (Or.inl rfl)).1 hm
  refine ⟨?_, hf, hr⟩
  rcases (candidate_iff J _).1 hc with ha | ha
  · exact ha
  · rw [hk] at hb
    exact absurd ha.1 (by simpa using hb)

/-- C103. If a gate is not reported as moved, it stays where it was. -/
theorem C103_stays (J : Job) (b : Bool) (p : Tile) (h : J.improve b = (p, false)) : p = J.old := by
  unfold Job.improve at h
  dsimp only at h
  split_ifs at h with h1 h2 h3
  · simpa using h.symm
  · have hp : (J.search b).cur = p := by simpa using h
    rw [← hp]
    rw [search_eq] at h2 ⊢
    by_cases hm : (J.inner ((List.range (J.X + J.Y + 1)).flatMap diagonal) ⟨J.old, 0, false, false, b, 0⟩).moved = true
    · obtain ⟨_, _, _, _, _, _, _, hk⟩ := (inner_spec J _ ⟨J.old, 0, false, false, b, 0⟩ rfl rfl (Or.inl rfl)).1 hm
      rw [hk] at h2
      simpa using h2
    · rw [Bool.not_eq_true] at hm
      rw [((inner_spec J _ ⟨J.old, 0, false, false, b, 0⟩ rfl rfl (Or.inl rfl)).2.1 hm).1] at h2
      cases h2
  · cases h
  · simpa using h.symm

/-- C103. A moved gate takes the first position that works: at all earlier ones that are free routing failed. -/
theorem C103_first (J : Job) (b : Bool) (p : Tile) (h : J.improve b = (p, true)) (t : Tile) (ha : Allowed J t)
    (hf : J.free t = true) (he : Earlier t p) : ∃ n, J.routes n t = false := by
  obtain ⟨_, hm, _, rfl⟩ := improve_true h
  rw [search_eq] at hm he
  obtain ⟨pre, post, hl, hpre, _⟩ := (inner_spec J _ ⟨J.old, 0, false, false, b, 0⟩ rfl rfl (Or.inl rfl)).1 hm
  have hmem : t ∈ (List.range (J.X + J.Y + 1)).flatMap diagonal := by
    rw [mem_diagonals]
    have := ha.inX
    have := ha.inY
    omega
  have hord := diagonals_pairwise (J.X + J.Y + 1)
  rw [hl] at hmem hord
  rw [List.pairwise_append, List.pairwise_cons] at hord
  rcases List.mem_append.1 hmem with h1 | h1
  · rcases hpre t h1 ((candidate_iff J t).2 (Or.inl ha)) hf with h2 | h2
    · have hb := ha.better
      rw [h2] at hb
      rcases hb with hb | hb <;> omega
    · exact h2
  · rcases List.mem_cons.1 h1 with h2 | h2
    · rw [h2] at he
      rcases he with he | he <;> omega
    · have h3 := hord.2.1.1 t h2
      rcases he with he | he <;> rcases h3 with h3 | h3 <;> omega

/-- C103. With the default number of relocations and without timeouts, a gate that is not fed directly by another gate moves if
there is a free position on an earlier diagonal that it may be moved to and from which routing succeeds. -/
theorem C103_complete (J : Job) (hl : (J.X + 1) * (J.Y + 1) ≤ J.limit) (hd : J.direct = false)
    (ht : (J.search false).timedOut = false) (t : Tile) (ha : Allowed J t)
    (he : t.1 + t.2 < J.old.1 + J.old.2) (hf : J.free t = true) (hr : ∀ n, J.routes n t = true) :
    ∃ p, J.improve false = (p, true) := by
  have hmem : t ∈ (List.range (J.X + J.Y + 1)).flatMap diagonal := by
    rw [mem_diagonals]
    have := ha.inX
    have := ha.inY
    omega
  have hcand := (candidate_iff J t).2 (Or.inl ha)
  have hnt : ¬ Tried J t := by
    intro h
    rcases h hcand hf with h | ⟨n, h⟩
    · rw [h] at he; omega
    · rw [hr n] at h; cases h
  have key : (J.search false).moved = true ∧ (J.search false).back = false := by
    rw [search_eq] at ht ⊢
    obtain ⟨i1, i2, _⟩ := inner_spec J ((List.range (J.X + J.Y + 1)).flatMap diagonal)
      ⟨J.old, 0, false, false, false, 0⟩ rfl rfl (Or.inl rfl)
    by_cases hm : (J.inner ((List.range (J.X + J.Y + 1)).flatMap diagonal) ⟨J.old, 0, false, false, false, 0⟩).moved = true
    · refine ⟨hm, ?_⟩
      obtain ⟨pre, post, e, hpre, _, _, _, hk⟩ := i1 hm
      rw [hk, beq_eq_false_iff_ne]
      intro hc
      have hord := diagonals_pairwise (J.X + J.Y + 1)
      rw [hc] at e
      rw [e] at hmem hord
      rw [List.pairwise_append, List.pairwise_cons] at hord
      rcases List.mem_append.1 hmem with h1 | h1
      · exact hnt (hpre t h1)
      · rcases List.mem_cons.1 h1 with h2 | h2
        · rw [h2] at he; omega
        · rcases hord.2.1.1 t h2 with h3 | h3 <;> omega
    · exfalso
      rw [Bool.not_eq_true] at hm
      obtain ⟨_, pre, post, e, hpre, hatt, hend⟩ := i2 hm
      have hpost : t ∈ post := by
        rw [e] at hmem
        rcases List.mem_append.1 hmem with h1 | h1
        · exact absurd (hpre t h1) hnt
        · exact h1
      rcases hend with h1 | h1 | h1
      · rw [h1] at hpost; cases hpost
      · have hc := candidates_le J (J.X + J.Y + 1)
        rw [e, List.filter_append, List.length_append] at hc
        have : 0 < (post.filter J.candidate).length := List.length_pos_of_mem (List.mem_filter.2 ⟨hpost, hcand⟩)
        dsimp only at hatt
        omega
      · rw [ht] at h1; cases h1
  refine ⟨(J.search false).cur, ?_⟩
  unfold Job.improve
  dsimp only
  rw [hd, key.1, key.2]
  simp

/-- C103. At most `limit` positions are tried for a gate. Missing: outputs, for which this is false, see C103_false_limit. -/
theorem C103_limit_partial (J : Job) (b : Bool) (h : J.isPo = false) : (J.search b).attempts ≤ J.limit := by
  rw [search_eq]
  exact (inner_spec J _ ⟨J.old, 0, false, false, b, 0⟩ rfl rfl (Or.inl rfl)).2.2 h (Nat.zero_le _)

/-- C103. No gate can be moved again and again without end, whatever happens to the other gates. -/
theorem C103_terminates (f : Nat → Tile) (jobs : Nat → Job) (b : Nat → Bool) (h0 : ∀ n, (jobs n).old = f n)
    (h : ∀ n, (jobs n).improve (b n) = (f (n + 1), true)) : False := by
  have hb : ∀ n, Better (f (n + 1)) (f n) := fun n => by
    rw [← h0 n]
    exact (C103_allowed _ _ _ (h n)).1.better
  have wf : WellFounded fun p q : Tile => Prod.Lex (· < ·) (· < ·) (p.1 + p.2, p.2) (q.1 + q.2, q.2) :=
    InvImage.wf (fun p : Tile => (p.1 + p.2, p.2)) (Prod.lex ⟨_, Nat.lt_wfRel.wf⟩ ⟨_, Nat.lt_wfRel.wf⟩).wf
  have hno : ∀ t, ∀ n, f n ≠ t := by
    intro t
    induction t using wf.induction with
    | _ t ih =>
      intro n hn
      refine ih (f (n + 1)) ?_ (n + 1) rfl
      rw [← hn]
      rcases hb n with h1 | h1
      · exact Prod.Lex.left _ _ h1
      · rw [h1.1]; exact Prod.Lex.right _ h1.2
  exact hno (f 0) 0 rfl

/-- C103. Layouts with other clocking schemes are rejected, and misplaced inputs and outputs are reported. -/
theorem C103_entry (twoddwave : Bool) (pis pos : List Tile) (X Y : Nat) :
    ((entry twoddwave pis pos X Y).2 = true ↔ twoddwave = true) ∧
      (Msg.input ∈ (entry twoddwave pis pos X Y).1 ↔ twoddwave = true ∧ ∃ t ∈ pis, t.1 ≠ 0 ∧ t.2 ≠ 0) ∧
      (Msg.output ∈ (entry twoddwave pis pos X Y).1 ↔ twoddwave = true ∧ ∃ t ∈ pos, t.1 ≠ X ∧ t.2 ≠ Y) := by
  unfold entry
  cases twoddwave
  · simp
  · refine ⟨by simp, ?_, ?_⟩
    · simp [and_comm]
    · simp

/-! ## Where the properties fail, and examples -/

/-- A gate in a layout of four by four tiles whose wires are long; routing fails in the first column. -/
def sample : Job :=
  { X := 3, Y := 3, fanins := [(0, 1)], incoming := [(2, 3)], old := (3, 3), isPi := false, isPo := false,
    maxNonPo := (3, 3), limit := 16, free := fun t => t != (0, 1), routes := fun _ t => t.1 != 0, timeout := fun _ => false }

/-- C103. Outputs may be tried at more positions than `max_gate_relocations`. -/
theorem C103_false_limit :
    ∃ J : Job, J.isPo = true ∧ J.limit = 1 ∧ (J.search false).attempts = 2 ∧ ((J.improve false).2 = true) :=
  ⟨{ sample with isPo := true, limit := 1, maxNonPo := (0, 1) }, by decide +kernel⟩

/-- C103. Layouts whose inputs are not at the border are reported as invalid and optimized nevertheless. -/
theorem C103_false_rejected : entry true [(1, 1)] [(3, 3)] 3 3 = ([Msg.input], true) := by decide +kernel

example : sample.improve false = ((1, 1), true) := by decide +kernel

example : sample.direct = false ∧ (sample.X + 1) * (sample.Y + 1) ≤ sample.limit ∧ (sample.search false).timedOut = false ∧
    sample.free (1, 1) = true := by decide +kernel

example : Allowed sample (1, 1) :=
  ⟨by decide, by decide, Or.inl (by decide), by decide, by decide, by decide⟩

example : ({ sample with routes := fun _ _ => false }).improve false = ((3, 3), false) := by decide +kernel

end Verif.Relocate
