import Verif.Networks.DepthSpec
import Mathlib.Tactic.ByContra

/-!
# Properties of levels, depth and critical paths
-/
namespace Verif.Views

variable {N : Net} {ps : Params}

theorem IsLevel.unique {n l l' : Nat} (h : IsLevel N ps n l) (h' : IsLevel N ps n l') : l = l' :=
  Nat.le_antisymm (h'.2 _ h.1) (h.2 _ h'.1)

theorem Needs.lt (H : N.WF) {n m : Nat} (hn : n < N.size) (h : Needs N n m) : m < N.size := by
  induction h with
  | refl => exact hn
  | tail _ h ih =>
    obtain ⟨f, hf, rfl⟩ := h
    exact H.fanins _ ih f hf

/-! ## Levels -/

/-- Entries are right for nodes up to a number, and so are those of their fanins. -/
def Good (N : Net) (ps : Params) (num : Nat → Nat) (b : Nat) (s : Lev) : Prop :=
  (∀ m ∈ s.visited, num m < b → (∃ l, s.levels m = some l ∧ IsLevel N ps m l) ∧ ∀ f ∈ N.fanins m, f.1 ∈ s.visited) ∧
  ∀ m, m ∉ s.visited → s.levels m = none

/-- What a call does. -/
structure Grown (N : Net) (num : Nat → Nat) (P : Nat → Prop) (s s' : Lev) : Prop where
  sub : ∀ m ∈ s.visited, m ∈ s'.visited
  keep : ∀ m ∈ s.visited, s'.levels m = s.levels m
  new : ∀ m ∈ s'.visited, m ∈ s.visited ∨ P m

theorem Grown.trans {num : Nat → Nat} {P Q : Nat → Prop} {s s' s'' : Lev} (h : Grown N num P s s') (h' : Grown N num Q s' s'') :
    Grown N num (fun m => P m ∨ Q m) s s'' :=
  ⟨fun m hm => h'.sub m (h.sub m hm), fun m hm => (h'.keep m (h.sub m hm)).trans (h.keep m hm),
    fun m hm => (h'.new m hm).elim (fun h1 => (h.new m h1).imp id Or.inl) fun h1 => Or.inr (Or.inr h1)⟩

theorem isLevel_gate {n l : Nat} (hc : N.isConst n = false) (hi : N.isCi n = false)
    (hat : (N.fanins n = [] ∧ l = 0) ∨ ∃ f ∈ N.fanins n, ∃ w, IsLevel N ps f.1 w ∧ l = w + ps.compl f.2)
    (hmax : ∀ f ∈ N.fanins n, ∃ w, IsLevel N ps f.1 w ∧ w + ps.compl f.2 ≤ l) : IsLevel N ps n (l + ps.cost n) := by
  constructor
  · rcases hat with ⟨h1, rfl⟩ | ⟨f, hf, w, hw, rfl⟩
    · have := PathTo.source (ps := ps) n h1
      simpa [sourceCost, hc, hi] using this
    · exact .step n f w hf hw.1
  · intro w hw
    cases hw with
    | source _ h1 => simp [sourceCost, hc, hi]
    | step _ f w hf hp =>
      obtain ⟨w', h1, h2⟩ := hmax f hf
      have := h1.2 w hp
      omega

theorem isLevel_source (H : N.WF) {n : Nat} (hs : N.isConst n = true ∨ N.isCi n = true) : IsLevel N ps n (sourceCost N ps n) := by
  have hf := H.source n hs
  refine ⟨.source n hf, fun w hw => ?_⟩
  cases hw with
  | source _ _ => exact Nat.le_refl _
  | step _ f w hf' _ => rw [hf] at hf'; cases hf'

theorem Good.mono {num : Nat → Nat} {b b' : Nat} {s : Lev} (h : b' ≤ b) (g : Good N ps num b s) : Good N ps num b' s :=
  ⟨fun m hm hlt => g.1 m hm (by omega), g.2⟩

/-- The loop over fanins and over outputs. -/
theorem levelLoop {num : Nat → Nat} {k b : Nat} (P : Nat → Prop)
    (ih : ∀ (s : Lev) (n : Nat), n < N.size → num n < k → Good N ps num (num n + 1) s →
      ∃ l s', computeLevel N ps k s n = some (l, s') ∧ IsLevel N ps n l ∧ n ∈ s'.visited ∧ Grown N num (fun m => Needs N n m ∧ num m ≤ num n) s s' ∧
        Good N ps num (num n + 1) s' ∧ s'.levels n = some l) (hb : b ≤ k) :
    ∀ (fs : List (Nat × Bool)) (a : Nat) (t : Lev), (∀ f ∈ fs, f.1 < N.size ∧ num f.1 < b ∧ ∀ m, Needs N f.1 m → P m) → Good N ps num b t →
      ∃ a' t', fs.foldl (fun acc f => acc.bind fun ls => (computeLevel N ps k ls.2 f.1).map fun c =>
          (max ls.1 (c.1 + ps.compl f.2), c.2)) (some (a, t)) = some (a', t') ∧ Good N ps num b t' ∧ Grown N num (fun m => P m ∧ num m < b) t t' ∧
        (∀ f ∈ fs, f.1 ∈ t'.visited) ∧ a ≤ a' ∧ (a' = a ∨ ∃ f ∈ fs, ∃ w, IsLevel N ps f.1 w ∧ a' = w + ps.compl f.2) ∧
        ∀ f ∈ fs, ∃ w, IsLevel N ps f.1 w ∧ w + ps.compl f.2 ≤ a' := by
  intro fs
  induction fs with
  | nil =>
    intro a t _ G
    exact ⟨a, t, rfl, G, ⟨fun m h => h, fun m _ => rfl, fun m h => Or.inl h⟩, by simp, Nat.le_refl _, Or.inl rfl, by simp⟩
  | cons f fs ihl =>
    intro a t hf G
    obtain ⟨h1, h2, h3⟩ := hf f List.mem_cons_self
    obtain ⟨l, s', e, hl, hv, hg, hG, -⟩ := ih t f.1 h1 (by omega) (G.mono (by omega))
    have G' : Good N ps num b s' := by
      refine ⟨fun m hm hlt => ?_, hG.2⟩
      rcases hg.new m hm with h | ⟨-, h⟩
      · obtain ⟨⟨l', g1, g2⟩, g3⟩ := G.1 m h hlt
        exact ⟨⟨l', (hg.keep m h).trans g1, g2⟩, fun f hf => hg.sub _ (g3 f hf)⟩
      · exact hG.1 m hm (by omega)
    obtain ⟨a', t', e', i1, i2, i3, i4, i5, i6⟩ := ihl (max a (l + ps.compl f.2)) s' (fun g hg => hf g (List.mem_cons_of_mem _ hg)) G'
    refine ⟨a', t', ?_, i1, ?_, ?_, by omega, ?_, ?_⟩
    · rw [List.foldl_cons]
      simp only [Option.bind_some, e, Option.map_some]
      exact e'
    · have := hg.trans i2
      exact ⟨this.sub, this.keep, fun m hm => (this.new m hm).imp id fun h => h.elim (fun h => ⟨h3 m h.1, by omega⟩) id⟩
    · intro g hg'
      rcases List.mem_cons.1 hg' with rfl | h
      · exact i2.sub _ hv
      · exact i3 g h
    · rcases i5 with h | ⟨g, hg, w, hw⟩
      · rcases Nat.le_total a (l + ps.compl f.2) with h' | h'
        · right
          exact ⟨f, List.mem_cons_self, l, hl, by omega⟩
        · left; omega
      · exact Or.inr ⟨g, List.mem_cons_of_mem _ hg, w, hw⟩
    · intro g hg'
      rcases List.mem_cons.1 hg' with rfl | h
      · exact ⟨l, hl, by omega⟩
      · exact i6 g h

theorem computeLevel_spec (H : N.WF) {num : Nat → Nat} (hnum : ∀ n < N.size, ∀ f ∈ N.fanins n, num f.1 < num n) :
    ∀ (k : Nat) (s : Lev) (n : Nat), n < N.size → num n < k → Good N ps num (num n + 1) s →
      ∃ l s', computeLevel N ps k s n = some (l, s') ∧ IsLevel N ps n l ∧ n ∈ s'.visited ∧ Grown N num (fun m => Needs N n m ∧ num m ≤ num n) s s' ∧
        Good N ps num (num n + 1) s' ∧ s'.levels n = some l := by
  intro k
  induction k with
  | zero => intro s n _ h; omega
  | succ k ih =>
    intro s n hn hk G
    have e : computeLevel N ps (k + 1) s n = (if n ∈ s.visited then some ((s.levels n).getD 0, s)
      else
        let s : Lev := { s with visited := n :: s.visited }
        if N.isConst n then some (0, s.set n 0)
        else if N.isCi n then
          let l := if ps.piCost then ps.cost n - 1 else 0
          some (l, s.set n l)
        else
          match (N.fanins n).foldl (fun acc f => acc.bind fun ls => (computeLevel N ps k ls.2 f.1).map fun c =>
              (max ls.1 (c.1 + ps.compl f.2), c.2)) (some (0, s)) with
          | none => none
          | some (l, s) => some (l + ps.cost n, s.set n (l + ps.cost n))) := rfl
    rw [e]
    clear e
    by_cases hv : n ∈ s.visited
    · rw [if_pos hv]
      obtain ⟨⟨l, h1, h2⟩, -⟩ := G.1 n hv (by omega)
      refine ⟨l, s, by rw [h1]; rfl, h2, hv, ⟨fun m hm => hm, fun m hm => rfl, fun m hm => Or.inl hm⟩, G, h1⟩
    · rw [if_neg hv]
      have G0 : Good N ps num (num n) ⟨n :: s.visited, s.levels⟩ := by
        refine ⟨fun m hm hlt => ?_, fun m hm => G.2 m fun h => hm (List.mem_cons_of_mem _ h)⟩
        rcases List.mem_cons.1 hm with rfl | hm
        · omega
        · obtain ⟨g1, g2⟩ := G.1 m hm (by omega)
          exact ⟨g1, fun f hf => List.mem_cons_of_mem _ (g2 f hf)⟩
      -- the node with its entry, given the state after the fanins
      have finish : ∀ (l : Nat) (t : Lev), IsLevel N ps n l → Good N ps num (num n) t →
          Grown N num (fun m => Needs N n m ∧ num m < num n) ⟨n :: s.visited, s.levels⟩ t → (∀ f ∈ N.fanins n, f.1 ∈ t.visited) →
          ∃ l' s', some (l, t.set n l) = some (l', s') ∧ IsLevel N ps n l' ∧ n ∈ s'.visited ∧ Grown N num (fun m => Needs N n m ∧ num m ≤ num n) s s' ∧
            Good N ps num (num n + 1) s' ∧ s'.levels n = some l' := by
        intro l t hl hG hg hf
        refine ⟨l, t.set n l, rfl, hl, hg.sub n List.mem_cons_self, ⟨fun m hm => hg.sub m (List.mem_cons_of_mem _ hm), fun m hm => ?_, fun m hm => ?_⟩,
          ⟨fun m hm hlt => ?_, fun m hm => ?_⟩, ?_⟩
        · show (if m = n then some l else t.levels m) = s.levels m
          rw [if_neg (show ¬ m = n by rintro rfl; exact hv hm)]
          exact hg.keep m (List.mem_cons_of_mem _ hm)
        · rcases hg.new m hm with h | ⟨h, h'⟩
          · rcases List.mem_cons.1 h with rfl | h
            · exact Or.inr ⟨Relation.ReflTransGen.refl, Nat.le_refl _⟩
            · exact Or.inl h
          · exact Or.inr ⟨h, by omega⟩
        · show (∃ l', (if m = n then some l else t.levels m) = some l' ∧ _) ∧ ∀ f ∈ N.fanins m, f.1 ∈ t.visited
          by_cases hmn : m = n
          · subst hmn
            rw [if_pos rfl]
            exact ⟨⟨l, rfl, hl⟩, hf⟩
          · rw [if_neg hmn]
            rcases hg.new m hm with h | ⟨h, h'⟩
            · have h : m ∈ s.visited := (List.mem_cons.1 h).resolve_left hmn
              obtain ⟨⟨l', g1, g2⟩, g3⟩ := G.1 m h hlt
              exact ⟨⟨l', (hg.keep m (List.mem_cons_of_mem _ h)).trans g1, g2⟩, fun f hf => hg.sub _ (List.mem_cons_of_mem _ (g3 f hf))⟩
            · exact hG.1 m hm h'
        · show (if m = n then some l else t.levels m) = none
          rw [if_neg]
          · exact hG.2 m hm
          · rintro rfl
            exact hm (hg.sub m List.mem_cons_self)
        · show (if n = n then some l else t.levels n) = some l
          rw [if_pos rfl]
      have refl : Grown N num (fun m => Needs N n m ∧ num m < num n) ⟨n :: s.visited, s.levels⟩ ⟨n :: s.visited, s.levels⟩ :=
        ⟨fun m h => h, fun m _ => rfl, fun m h => Or.inl h⟩
      by_cases hc : N.isConst n = true
      · have hl := isLevel_source (ps := ps) H (Or.inl hc)
        have e : sourceCost N ps n = 0 := by simp [sourceCost, hc]
        rw [e] at hl
        simp only [hc, if_true]
        exact finish _ _ hl G0 refl (by rw [H.source n (Or.inl hc)]; simp)
      · rw [Bool.not_eq_true] at hc
        by_cases hi : N.isCi n = true
        · have hl := isLevel_source (ps := ps) H (Or.inr hi)
          have e : sourceCost N ps n = if ps.piCost then ps.cost n - 1 else 0 := by simp [sourceCost, hc, hi]
          rw [e] at hl
          simp only [hc, hi, if_true, Bool.false_eq_true, if_false]
          exact finish _ _ hl G0 refl (by rw [H.source n (Or.inr hi)]; simp)
        · rw [Bool.not_eq_true] at hi
          simp only [hc, hi, Bool.false_eq_true, if_false]
          obtain ⟨a', t', e', i1, i2, i3, i4, i5, i6⟩ := levelLoop (N := N) (ps := ps) (b := num n) (fun m => Needs N n m) ih (by omega) (N.fanins n) 0
            ⟨n :: s.visited, s.levels⟩ (fun f hf => ⟨H.fanins n hn f hf, hnum n hn f hf, fun m hm => Relation.ReflTransGen.head ⟨f, hf, rfl⟩ hm⟩) G0
          rw [e']
          refine finish _ _ (isLevel_gate hc hi ?_ i6) i1 i2 i3
          rcases i5 with rfl | h
          · cases hfs : N.fanins n with
            | nil => exact Or.inl ⟨rfl, rfl⟩
            | cons f fs =>
              obtain ⟨w, hw, hle⟩ := i6 f (by rw [hfs]; exact List.mem_cons_self)
              exact Or.inr ⟨f, List.mem_cons_self, w, hw, by omega⟩
          · exact Or.inr h

/-- All levels. -/
theorem computeLevels_spec (H : N.WF) : ∃ d s, computeLevels N ps (N.size + 1) = some (d, s) ∧ IsDepth N ps d ∧
    (∀ n, Used N n → ∃ l, s.levels n = some l ∧ IsLevel N ps n l) ∧ ∀ n, ¬ Used N n → s.levels n = none := by
  obtain ⟨num, h1, h2⟩ := H.acyclic
  obtain ⟨d, s, e, i1, i2, i3, i4, i5, i6⟩ := levelLoop (N := N) (ps := ps) (b := N.size) (k := N.size + 1) (num := num) (Used N)
    (computeLevel_spec H h2 _) (by omega) N.pos 0 ⟨[], fun _ => none⟩ (fun f hf => ⟨H.pos f hf, h1 _ (H.pos f hf), fun m hm => ⟨f, hf, hm⟩⟩)
    ⟨fun m hm => (List.not_mem_nil hm).elim, fun _ _ => rfl⟩
  have hclosed : ∀ n m, n < N.size → n ∈ s.visited → Needs N n m → m ∈ s.visited := by
    intro n m hn hv h
    induction h with
    | refl => exact hv
    | tail hnb h ih =>
      obtain ⟨f, hf, rfl⟩ := h
      exact (i1.1 _ ih (h1 _ (Needs.lt H hn hnb))).2 f hf
  refine ⟨d, s, e, ⟨?_, ?_⟩, ?_, ?_⟩
  · rcases i5 with rfl | ⟨f, hf, w, hw, h⟩
    · cases hp : N.pos with
      | nil => exact Or.inl ⟨rfl, rfl⟩
      | cons f fs =>
        obtain ⟨w, hw, hle⟩ := i6 f (by rw [hp]; exact List.mem_cons_self)
        exact Or.inr ⟨f, List.mem_cons_self, w, hw.1, by omega⟩
    · exact Or.inr ⟨f, hf, w, hw.1, h⟩
  · intro p hp w hw
    obtain ⟨w', h, hle⟩ := i6 p hp
    have := h.2 w hw
    omega
  · rintro n ⟨p, hp, hn⟩
    have hv := hclosed p.1 n (H.pos p hp) (i3 p hp) hn
    exact (i1.1 n hv (h1 n (Needs.lt H (H.pos p hp) hn))).1
  · intro n hn
    refine i1.2 n fun hv => ?_
    rcases i2.new n hv with h | ⟨h, -⟩
    · cases h
    · exact hn h

/-! ## Critical paths -/

/-- A fanin on a most expensive path to a node. -/
def Tight (N : Net) (ps : Params) (lv : Nat → Option Nat) (a b : Nat) : Prop :=
  ∃ f ∈ N.fanins a, f.1 = b ∧ (lv f.1).getD 0 + (ps.cost a + ps.compl f.2) = (lv a).getD 0

theorem setCritical_spec (H : N.WF) {num : Nat → Nat} (hnum : ∀ n < N.size, ∀ f ∈ N.fanins n, num f.1 < num n) (lv : Nat → Option Nat) :
    ∀ (k : Nat) (crit : List Nat) (n : Nat), n < N.size → num n < k →
      ∃ crit', setCritical N ps lv k crit n = some crit' ∧ n ∈ crit' ∧ (∀ m ∈ crit, m ∈ crit') ∧
        (∀ m ∈ crit', m ∈ crit ∨ Relation.ReflTransGen (Tight N ps lv) n m) ∧ ∀ m ∈ crit', m ∈ crit ∨ ∀ m', Tight N ps lv m m' → m' ∈ crit' := by
  intro k
  induction k with
  | zero => intro crit n _ h; omega
  | succ k ih =>
    intro crit n hn hk
    have e : setCritical N ps lv (k + 1) crit n = (if !N.isConst n && !(ps.piCost && N.isCi n) then
      (N.fanins n).foldl (fun acc f => acc.bind fun crit =>
        if (lv f.1).getD 0 + (ps.cost n + ps.compl f.2) = (lv n).getD 0 ∧ f.1 ∉ crit then setCritical N ps lv k crit f.1
        else some crit) (some (n :: crit))
      else some (n :: crit)) := rfl
    rw [e]
    clear e
    have stop : N.fanins n = [] → ∃ crit', some (n :: crit) = some crit' ∧ n ∈ crit' ∧ (∀ m ∈ crit, m ∈ crit') ∧
        (∀ m ∈ crit', m ∈ crit ∨ Relation.ReflTransGen (Tight N ps lv) n m) ∧ ∀ m ∈ crit', m ∈ crit ∨ ∀ m', Tight N ps lv m m' → m' ∈ crit' := by
      intro h0
      refine ⟨n :: crit, rfl, List.mem_cons_self, fun m hm => List.mem_cons_of_mem _ hm, fun m hm => ?_, fun m hm => ?_⟩
      · rcases List.mem_cons.1 hm with rfl | h
        · exact Or.inr .refl
        · exact Or.inl h
      · rcases List.mem_cons.1 hm with rfl | h
        · right
          rintro m' ⟨f, hf, -⟩
          rw [h0] at hf
          cases hf
        · exact Or.inl h
    by_cases hb : (!N.isConst n && !(ps.piCost && N.isCi n)) = true
    · rw [if_pos hb]
      have loop : ∀ (fs : List (Nat × Bool)) (c : List Nat), (∀ f ∈ fs, f ∈ N.fanins n) → ∃ c', fs.foldl (fun acc f => acc.bind fun crit =>
          if (lv f.1).getD 0 + (ps.cost n + ps.compl f.2) = (lv n).getD 0 ∧ f.1 ∉ crit then setCritical N ps lv k crit f.1
          else some crit) (some c) = some c' ∧ (∀ m ∈ c, m ∈ c') ∧ (∀ m ∈ c', m ∈ c ∨ Relation.ReflTransGen (Tight N ps lv) n m) ∧
          (∀ m ∈ c', m ∈ c ∨ ∀ m', Tight N ps lv m m' → m' ∈ c') ∧
          ∀ f ∈ fs, (lv f.1).getD 0 + (ps.cost n + ps.compl f.2) = (lv n).getD 0 → f.1 ∈ c' := by
        intro fs
        induction fs with
        | nil => intro c _; exact ⟨c, rfl, fun m h => h, fun m h => Or.inl h, fun m h => Or.inl h, by simp⟩
        | cons f fs ihl =>
          intro c hsub
          have hf := hsub f List.mem_cons_self
          have hsub' : ∀ g ∈ fs, g ∈ N.fanins n := fun g hg => hsub g (List.mem_cons_of_mem _ hg)
          rw [List.foldl_cons]
          simp only [Option.bind_some]
          by_cases ht : (lv f.1).getD 0 + (ps.cost n + ps.compl f.2) = (lv n).getD 0 ∧ f.1 ∉ c
          · rw [if_pos ht]
            obtain ⟨c1, e1, a1, a2, a3, a4⟩ := ih c f.1 (H.fanins n hn f hf) (by have := hnum n hn f hf; omega)
            rw [e1]
            obtain ⟨c2, e2, b1, b2, b3, b4⟩ := ihl c1 hsub'
            refine ⟨c2, e2, fun m hm => b1 m (a2 m hm), fun m hm => ?_, fun m hm => ?_, fun g hg hgt => ?_⟩
            · rcases b2 m hm with h | h
              · exact (a3 m h).imp id fun h => Relation.ReflTransGen.head ⟨f, hf, rfl, ht.1⟩ h
              · exact Or.inr h
            · rcases b3 m hm with h | h
              · exact (a4 m h).imp id fun h m' hm' => b1 _ (h m' hm')
              · exact Or.inr h
            · rcases List.mem_cons.1 hg with rfl | hg
              · exact b1 _ a1
              · exact b4 g hg hgt
          · rw [if_neg ht]
            obtain ⟨c2, e2, b1, b2, b3, b4⟩ := ihl c hsub'
            refine ⟨c2, e2, b1, b2, b3, fun g hg hgt => ?_⟩
            rcases List.mem_cons.1 hg with rfl | hg
            · refine b1 _ ?_
              by_contra hc
              exact ht ⟨hgt, hc⟩
            · exact b4 g hg hgt
      obtain ⟨c', e', l1, l2, l3, l4⟩ := loop (N.fanins n) (n :: crit) (fun f h => h)
      refine ⟨c', e', l1 n List.mem_cons_self, fun m hm => l1 m (List.mem_cons_of_mem _ hm), fun m hm => ?_, fun m hm => ?_⟩
      · rcases l2 m hm with h | h
        · rcases List.mem_cons.1 h with rfl | h
          · exact Or.inr .refl
          · exact Or.inl h
        · exact Or.inr h
      · rcases l3 m hm with h | h
        · rcases List.mem_cons.1 h with rfl | h
          · right
            rintro m' ⟨f, hf, rfl, ht⟩
            exact l4 f hf ht
          · exact Or.inl h
        · exact Or.inr h
    · rw [if_neg hb]
      refine stop (H.source n ?_)
      cases h1 : N.isConst n <;> cases h2 : N.isCi n <;> simp_all

theorem criticalPath_spec (H : N.WF) (d : Nat) (lv : Nat → Option Nat) : ∃ crit, criticalPath N ps (N.size + 1) d lv = some crit ∧
    ∀ m, m ∈ crit ↔ ∃ p ∈ N.pos, (lv p.1).getD 0 = d ∧ Relation.ReflTransGen (Tight N ps lv) p.1 m := by
  obtain ⟨num, h1, h2⟩ := H.acyclic
  have loop : ∀ (fs : List (Nat × Bool)) (c : List Nat), (∀ f ∈ fs, f ∈ N.pos) → ∃ c', fs.foldl (fun acc f => acc.bind fun crit =>
      if (lv f.1).getD 0 = d then setCritical N ps lv (N.size + 1) crit f.1 else some crit) (some c) = some c' ∧ (∀ m ∈ c, m ∈ c') ∧
      (∀ m ∈ c', m ∈ c ∨ ∃ p ∈ fs, (lv p.1).getD 0 = d ∧ Relation.ReflTransGen (Tight N ps lv) p.1 m) ∧
      (∀ m ∈ c', m ∈ c ∨ ∀ m', Tight N ps lv m m' → m' ∈ c') ∧ ∀ f ∈ fs, (lv f.1).getD 0 = d → f.1 ∈ c' := by
    intro fs
    induction fs with
    | nil => intro c _; exact ⟨c, rfl, fun m h => h, fun m h => Or.inl h, fun m h => Or.inl h, by simp⟩
    | cons f fs ihl =>
      intro c hsub
      have hf := hsub f List.mem_cons_self
      have hsub' : ∀ g ∈ fs, g ∈ N.pos := fun g hg => hsub g (List.mem_cons_of_mem _ hg)
      rw [List.foldl_cons]
      simp only [Option.bind_some]
      by_cases ht : (lv f.1).getD 0 = d
      · rw [if_pos ht]
        obtain ⟨c1, e1, a1, a2, a3, a4⟩ := setCritical_spec (ps := ps) H h2 lv (N.size + 1) c f.1 (H.pos f hf) (by have := h1 f.1 (H.pos f hf); omega)
        rw [e1]
        obtain ⟨c2, e2, b1, b2, b3, b4⟩ := ihl c1 hsub'
        refine ⟨c2, e2, fun m hm => b1 m (a2 m hm), fun m hm => ?_, fun m hm => ?_, fun g hg hgt => ?_⟩
        · rcases b2 m hm with h | ⟨p, hp, h⟩
          · exact (a3 m h).imp id fun h => ⟨f, List.mem_cons_self, ht, h⟩
          · exact Or.inr ⟨p, List.mem_cons_of_mem _ hp, h⟩
        · rcases b3 m hm with h | h
          · exact (a4 m h).imp id fun h m' hm' => b1 _ (h m' hm')
          · exact Or.inr h
        · rcases List.mem_cons.1 hg with rfl | hg
          · exact b1 _ a1
          · exact b4 g hg hgt
      · rw [if_neg ht]
        obtain ⟨c2, e2, b1, b2, b3, b4⟩ := ihl c hsub'
        refine ⟨c2, e2, b1, fun m hm => (b2 m hm).imp id fun ⟨p, hp, h⟩ => ⟨p, List.mem_cons_of_mem _ hp, h⟩, b3, fun g hg hgt => ?_⟩
        rcases List.mem_cons.1 hg with rfl | hg
        · exact absurd hgt ht
        · exact b4 g hg hgt
  obtain ⟨c, e, l1, l2, l3, l4⟩ := loop N.pos [] (fun f h => h)
  refine ⟨c, e, fun m => ⟨fun hm => (l2 m hm).resolve_left List.not_mem_nil, ?_⟩⟩
  rintro ⟨p, hp, hd, hr⟩
  induction hr with
  | refl => exact l4 p hp hd
  | tail _ ht ih => exact (l3 _ ih).resolve_left List.not_mem_nil _ ht

/-- **C72** (levels and depth) The view can be constructed for every network. The depth is the cost of a most expensive path to an output, and the level of a
node that an output depends on is the cost of a most expensive path to it. There is no level for other nodes: asking for it throws. -/
theorem C72_levels (H : N.WF) (ps : Params) : ∃ V, depthView N ps = some V ∧ IsDepth N ps V.depth ∧
    (∀ n, Used N n → ∃ l, V.level n = some l ∧ IsLevel N ps n l) ∧ ∀ n, ¬ Used N n → V.level n = none := by
  obtain ⟨d, s, e, h1, h2, h3⟩ := computeLevels_spec (ps := ps) H
  obtain ⟨crit, e', -⟩ := criticalPath_spec (ps := ps) H d s.levels
  refine ⟨⟨d, s.levels, crit⟩, ?_, h1, h2, h3⟩
  unfold depthView
  rw [e]
  simp only [e']

/-- **C72** (critical path) If complemented outputs are not counted, the nodes on the critical path are those on a most expensive path to an output. -/
theorem C72_critical_partial (H : N.WF) (ps : Params) (hc : ps.countComplements = true → ∀ p ∈ N.pos, p.2 = false) {V : DepthView}
    (hV : depthView N ps = some V) (n : Nat) : n ∈ V.critical ↔ OnLongest N ps V.depth n := by
  obtain ⟨d, s, e, h1, h2, h3⟩ := computeLevels_spec (ps := ps) H
  obtain ⟨crit, e', hcr⟩ := criticalPath_spec (ps := ps) H d s.levels
  have hVe : V = ⟨d, s.levels, crit⟩ := by
    unfold depthView at hV
    rw [e] at hV
    simp only [e', Option.some.injEq] at hV
    exact hV.symm
  subst hVe
  show n ∈ crit ↔ OnLongest N ps d n
  have hcompl : ∀ p ∈ N.pos, ps.compl p.2 = 0 := by
    intro p hp
    unfold Params.compl
    cases hcc : ps.countComplements
    · simp
    · rw [hc hcc p hp]; simp
  have lev : ∀ m, Used N m → IsLevel N ps m ((s.levels m).getD 0) := by
    intro m hm
    obtain ⟨l, h, hl⟩ := h2 m hm
    rw [h]
    exact hl
  rw [hcr]
  constructor
  · rintro ⟨p, hp, hd, hr⟩
    have hup : Used N p.1 := ⟨p, hp, .refl⟩
    have key : Needs N p.1 n ∧ ∃ w, PathFrom N ps p.1 n w ∧ (s.levels n).getD 0 + w = d := by
      induction hr with
      | refl => exact ⟨.refl, 0, .here, by omega⟩
      | tail _ ht ih =>
        obtain ⟨i1, w, i2, i3⟩ := ih
        obtain ⟨f, hf, rfl, hl⟩ := ht
        exact ⟨i1.tail ⟨f, hf, rfl⟩, _, .step _ f w i2 hf, by omega⟩
    obtain ⟨k1, w, k2, k3⟩ := key
    exact ⟨p, hp, _, w, (lev n ⟨p, hp, k1⟩).1, k2, by rw [hcompl p hp]; exact k3⟩
  · rintro ⟨p, hp, w, w', hw, hw', hs⟩
    rw [hcompl p hp, Nat.add_zero] at hs
    have needs : ∀ {m v}, PathFrom N ps p.1 m v → Needs N p.1 m := by
      intro m v h
      induction h with
      | here => exact .refl
      | step m f v _ hf ih => exact ih.tail ⟨f, hf, rfl⟩
    have key : ∀ {m v}, PathFrom N ps p.1 m v → (s.levels m).getD 0 + v ≤ (s.levels p.1).getD 0 ∧
        ((s.levels m).getD 0 + v = (s.levels p.1).getD 0 → Relation.ReflTransGen (Tight N ps s.levels) p.1 m) := by
      intro m v h
      induction h with
      | here => exact ⟨by omega, fun _ => .refl⟩
      | step m f v h hf ih =>
        have hm := lev m ⟨p, hp, needs h⟩
        have hfm := lev f.1 ⟨p, hp, (needs h).tail ⟨f, hf, rfl⟩⟩
        have := hm.2 _ (.step m f _ hf hfm.1)
        refine ⟨by omega, fun heq => (ih.2 (by omega)).tail ⟨f, hf, rfl, by omega⟩⟩
    have hp' := lev p.1 ⟨p, hp, .refl⟩
    have hn' := lev n ⟨p, hp, needs hw'⟩
    have hle := h1.2 p hp _ hp'.1
    rw [hcompl p hp] at hle
    have := hn'.2 w hw
    obtain ⟨k1, k2⟩ := key hw'
    exact ⟨p, hp, by omega, k2 (by omega)⟩

/-! ## Examples -/

/-- Nodes 0 and 1 are constants, 2, 3 and 4 inputs, 5 reads 2 and 3, 6 reads 5 and 3, 7 reads 4; 6 and 7 are outputs. Nothing reads 8. -/
def demoNet : Net where
  size := 9
  isConst := fun n => decide (n ≤ 1)
  isCi := fun n => decide (2 ≤ n ∧ n ≤ 4)
  fanins := fun n => if n = 5 then [(2, false), (3, true)] else if n = 6 then [(5, false), (3, false)] else if n = 7 then [(4, false)] else if n = 8 then [(4, false)] else []
  pos := [(6, false), (7, false)]

theorem demoNet_wf : demoNet.WF := by
  refine ⟨?_, by decide, by decide, fun n => n, fun n h => h, by decide⟩
  intro n h
  have h : n ≤ 4 := by
    simp only [demoNet, decide_eq_true_eq] at h
    omega
  simp only [demoNet]
  rw [if_neg (by omega), if_neg (by omega), if_neg (by omega), if_neg (by omega)]

example : ∃ V, depthView demoNet {} = some V ∧ V.depth = 2 ∧ V.level 7 = some 1 ∧ V.level 8 = none ∧ V.critical = [3, 2, 5, 6] := by
  have key : (depthView demoNet {}).map (fun V => (V.depth, V.level 7, V.level 8, V.critical)) = some (2, some 1, none, [3, 2, 5, 6]) := by decide +kernel
  obtain ⟨V, hV, e⟩ := Option.map_eq_some_iff.1 key
  simp only [Prod.mk.injEq] at e
  exact ⟨V, hV, e.1, e.2.1, e.2.2.1, e.2.2.2⟩

/-- With complements, and a cost for inputs. -/
example : (depthView demoNet ⟨true, true, fun n => if n = 3 then 5 else 1⟩).map (fun V => (V.depth, V.level 5)) = some (7, some 6) := by decide +kernel

/-- **C72** is false of complemented outputs that are counted: here the only output is a complemented input, and nothing is on the critical path. -/
theorem C72_false_critical : ∃ (N : Net) (ps : Params) (V : DepthView), N.WF ∧ depthView N ps = some V ∧ V.critical = [] ∧ OnLongest N ps V.depth 2 := by
  let N : Net := ⟨3, fun n => decide (n ≤ 1), fun n => decide (n = 2), fun _ => [], [(2, true)]⟩
  have key : (depthView N ⟨true, false, fun _ => 1⟩).map (fun V => (V.depth, V.critical)) = some (1, []) := by decide +kernel
  obtain ⟨V, hV, e⟩ := Option.map_eq_some_iff.1 key
  simp only [Prod.mk.injEq] at e
  refine ⟨N, ⟨true, false, fun _ => 1⟩, V, ⟨fun _ _ => rfl, by simp [N], by decide, fun n => n, fun n h => h, by simp [N]⟩, hV, e.2, ?_⟩
  rw [e.1]
  exact ⟨(2, true), List.mem_cons_self, 0, 0, PathTo.source 2 rfl, .here, rfl⟩

/-- **C72** is false of inputs that are not used: they have no level although they are nodes of the network. -/
theorem C72_false_level : ∃ (N : Net) (V : DepthView) (n : Nat), N.WF ∧ depthView N {} = some V ∧ n < N.size ∧ N.isCi n = true ∧ V.level n = none := by
  let N : Net := ⟨4, fun n => decide (n ≤ 1), fun n => decide (n = 2 ∨ n = 3), fun _ => [], [(2, false)]⟩
  have key : (depthView N {}).map (fun V => V.level 3) = some none := by decide +kernel
  obtain ⟨V, hV, e⟩ := Option.map_eq_some_iff.1 key
  exact ⟨N, V, 3, ⟨fun _ _ => rfl, by simp [N], by decide, fun n => n, fun n h => h, by simp [N]⟩, hV, by decide, by decide, e⟩

end Verif.Views
