import Verif.SidbAnalysis.Temperature
import Mathlib.Data.List.Perm.Basic
import Mathlib.Algebra.BigOperators.Group.List.Basic
import Mathlib.Algebra.Order.BigOperators.Group.List
import Mathlib.Tactic.Linarith
import Mathlib.Tactic.FieldSimp
import Mathlib.Tactic.Ring
import Mathlib.Tactic.Positivity

/-!
# Lemmas on state types, occupation probabilities and critical temperatures
-/
namespace Verif.SidbAnalysis

open Verif.Sidb

/-! ## State types -/

theorem flatMap_ite_unique {α β : Type} [DecidableEq α] (d : List α) (hd : d.Nodup) (r : α → Bool) (g : α → β) (u : α) (hu : u ∈ d) (hr : r u = true)
    (hun : ∀ v ∈ d, r v = true → v = u) : (d.flatMap fun v => if r v then [g v] else []) = [g u] := by
  induction d with
  | nil => simp at hu
  | cons a d ih =>
    rw [List.nodup_cons] at hd
    rw [List.flatMap_cons]
    by_cases ha : a = u
    · subst ha
      have : (d.flatMap fun v => if r v then [g v] else []) = [] := by
        rw [List.flatMap_eq_nil_iff]
        intro v hv
        rw [if_neg]
        intro hrv
        exact hd.1 (hun v (List.mem_cons_of_mem _ hv) hrv ▸ hv)
      rw [this, if_pos hr]
      rfl
    · rw [if_neg (fun h => ha (hun a List.mem_cons_self h)), List.nil_append]
      exact ih hd.2 (by
        rcases List.mem_cons.1 hu with h | h
        · exact absurd h.symm ha
        · exact h) fun v hv => hun v (List.mem_cons_of_mem _ hv)

theorem flatMap_filter_perm {α β σ : Type} [DecidableEq α] (d : List α) (hd : d.Nodup) (r : α → σ → Bool) (g : α → σ → β)
    (rep : σ → α) (l : List σ) (h : ∀ s ∈ l, rep s ∈ d ∧ r (rep s) s = true ∧ ∀ v ∈ d, r v s = true → v = rep s) :
    (d.flatMap fun u => (l.filter (r u)).map (g u)).Perm (l.map fun s => g (rep s) s) := by
  induction l with
  | nil => simp
  | cons s l ih =>
    obtain ⟨h1, h2, h3⟩ := h s List.mem_cons_self
    have e : (fun u => ((s :: l).filter (r u)).map (g u)) =
        fun u => (if r u s then [g u s] else []) ++ (l.filter (r u)).map (g u) := by
      funext u
      rw [List.filter_cons]
      split_ifs <;> simp
    rw [e]
    refine (List.flatMap_append_perm d _ _).symm.trans ?_
    rw [flatMap_ite_unique d hd (fun u => r u s) (fun u => g u s) (rep s) h1 h2 h3, List.map_cons]
    exact List.Perm.cons _ (ih fun s' hs' => h s' (List.mem_cons_of_mem _ hs'))

theorem outputType_iff (cs : List Charge) (bs : List Bool) (h : cs.length = bs.length) :
    outputType cs bs = .accepted ↔ List.Forall₂ (fun c b => c ≠ .neu ↔ b = true) cs bs := by
  induction cs generalizing bs with
  | nil =>
    cases bs with
    | nil => simp [outputType]
    | cons b bs => simp at h
  | cons c cs ih =>
    cases bs with
    | nil => simp at h
    | cons b bs =>
      rw [List.forall₂_cons, ← ih bs (by simpa using h)]
      have e : outputType (c :: cs) (b :: bs) = if decide (-c.sign ≠ 0) ≠ b then .rejected else outputType cs bs := rfl
      rw [e]
      cases c <;> cases b <;> simp [Charge.sign]

/-! ## Rounding -/

theorem roundAway_mono_one (x y : Rat) (h : x + 1 ≤ y) : roundAway x + 1 ≤ roundAway y := by
  unfold roundAway
  by_cases hx : x < 0
  · rw [if_pos hx]
    by_cases hy : y < 0
    · rw [if_pos hy]
      have : ⌊-y + 1 / 2⌋ + 1 ≤ ⌊-x + 1 / 2⌋ := by
        rw [← Int.floor_add_one]
        exact Int.floor_le_floor (by linarith)
      omega
    · rw [if_neg hy]
      have h1 : ((⌊y + 1 / 2⌋ : Int) : Rat) + 1 > y + 1 / 2 := Int.lt_floor_add_one _
      have h2 : ((⌊-x + 1 / 2⌋ : Int) : Rat) + 1 > -x + 1 / 2 := Int.lt_floor_add_one _
      have h3 : ((⌊y + 1 / 2⌋ : Int) : Rat) + ⌊-x + 1 / 2⌋ > 0 := by linarith
      have h4 : (0 : Int) < ⌊y + 1 / 2⌋ + ⌊-x + 1 / 2⌋ := by exact_mod_cast h3
      omega
  · rw [if_neg hx, if_neg (by linarith), ← Int.floor_add_one]
    exact Int.floor_le_floor (by linarith)

theorem roundAway_mono (x y : Rat) (h : x ≤ y) : roundAway x ≤ roundAway y := by
  unfold roundAway
  by_cases hx : x < 0
  · rw [if_pos hx]
    by_cases hy : y < 0
    · rw [if_pos hy]
      have : ⌊-y + 1 / 2⌋ ≤ ⌊-x + 1 / 2⌋ := Int.floor_le_floor (by linarith)
      omega
    · rw [if_neg hy]
      have h1 : (0 : Int) ≤ ⌊y + 1 / 2⌋ := Int.floor_nonneg.2 (by linarith)
      have h2 : (0 : Int) ≤ ⌊-x + 1 / 2⌋ := Int.floor_nonneg.2 (by linarith)
      omega
  · rw [if_neg hx, if_neg (by linarith)]
    exact Int.floor_le_floor (by linarith)

theorem round6_mono (x y : Rat) (h : x ≤ y) : round6 x ≤ round6 y := by
  unfold round6
  have : ((roundAway (x * 1000000) : Int) : Rat) ≤ roundAway (y * 1000000) := by
    exact_mod_cast roundAway_mono _ _ (by linarith)
  linarith

theorem round6_separated (x y : Rat) (h : x + margin ≤ y) : round6 x + margin ≤ round6 y := by
  unfold round6 margin at *
  have : ((roundAway (x * 1000000) : Int) : Rat) + 1 ≤ roundAway (y * 1000000) := by
    exact_mod_cast roundAway_mono_one _ _ (by linarith)
  linarith

/-! ## Sums -/

theorem foldl_add_map {α : Type} (f : α → ℝ) (l : List α) (a : ℝ) :
    l.foldl (fun z x => z + f x) a = a + (l.map f).sum := by
  induction l generalizing a with
  | nil => simp
  | cons x l ih => rw [List.foldl_cons, ih, List.map_cons, List.sum_cons]; ring

theorem foldl_ite_map {α : Type} (c : α → Prop) [DecidablePred c] (f : α → ℝ) (l : List α) (a : ℝ) :
    l.foldl (fun z x => if c x then z + f x else z) a = a + ((l.filter fun x => decide (c x)).map f).sum := by
  induction l generalizing a with
  | nil => simp
  | cons x l ih =>
    rw [List.foldl_cons, ih, List.filter_cons]
    by_cases h : c x
    · simp only [h, if_true, decide_true, List.map_cons, List.sum_cons]; ring
    · simp [h]

theorem sum_filter_add {α : Type} (c : α → Bool) (f : α → ℝ) (l : List α) :
    (l.map f).sum = ((l.filter c).map f).sum + ((l.filter fun x => !c x).map f).sum := by
  induction l with
  | nil => simp
  | cons x l ih =>
    rw [List.map_cons, List.sum_cons, ih, List.filter_cons, List.filter_cons]
    cases c x <;> simp <;> ring

theorem sum_nonneg_of {α : Type} (f : α → ℝ) (l : List α) (h : ∀ x ∈ l, 0 ≤ f x) : 0 ≤ (l.map f).sum := by
  induction l with
  | nil => simp
  | cons x l ih =>
    rw [List.map_cons, List.sum_cons]
    have := h x List.mem_cons_self
    have := ih fun y hy => h y (List.mem_cons_of_mem _ hy)
    linarith

theorem sum_mul_le {α : Type} (f1 f2 : α → ℝ) (a1 a2 : ℝ) (l : List α) (h : ∀ x ∈ l, f1 x * a2 ≤ f2 x * a1) :
    (l.map f1).sum * a2 ≤ (l.map f2).sum * a1 := by
  induction l with
  | nil => simp
  | cons x l ih =>
    rw [List.map_cons, List.sum_cons, List.map_cons, List.sum_cons]
    have := h x List.mem_cons_self
    have := ih fun y hy => h y (List.mem_cons_of_mem _ hy)
    linarith

theorem sum_cross_le {α : Type} (f1 f2 : α → ℝ) (xs gs : List α) (h : ∀ x ∈ xs, ∀ g ∈ gs, f1 x * f2 g ≤ f2 x * f1 g) :
    (xs.map f1).sum * (gs.map f2).sum ≤ (xs.map f2).sum * (gs.map f1).sum := by
  refine sum_mul_le f1 f2 _ _ xs fun x hx => ?_
  have := sum_mul_le f2 f1 (f2 x) (f1 x) gs fun g hg => by
    have := h x hx g hg
    linarith
  linarith

/-! ## Scanning temperatures -/

theorem mem_temps (n : Nat) (t : Rat) : t ∈ temps n ↔ ∃ i : Nat, i < n ∧ t = ((i : Rat) + 1) / 100 := by
  unfold temps
  rw [List.mem_map]
  constructor
  · rintro ⟨i, hi, rfl⟩
    exact ⟨i, List.mem_range.1 hi, rfl⟩
  · rintro ⟨i, hi, rfl⟩
    exact ⟨i, List.mem_range.2 hi, rfl⟩

theorem temps_sorted (n : Nat) : (temps n).Pairwise (· < ·) := by
  unfold temps
  rw [List.pairwise_map]
  refine List.pairwise_lt_range.imp ?_
  intro a b h
  have : (a : Rat) < b := by exact_mod_cast h
  linarith

theorem scan_spec (maxT : Rat) (p : Rat → ℝ) (thr : ℝ) (ts : List Rat) (hs : ts.Pairwise (· < ·)) (ct : Rat)
    (H : ∀ t ∈ ts, absR (t - maxT) < 1 / 1000 → t < ct → ct = maxT) :
    (scan maxT p thr ts ct = ct ∨ (scan maxT p thr ts ct ∈ ts ∧ scan maxT p thr ts ct < ct ∧ thr < p (scan maxT p thr ts ct))) ∧
      ∀ t ∈ ts, t < scan maxT p thr ts ct → p t ≤ thr := by
  induction ts with
  | nil => simp [scan]
  | cons t ts ih =>
    rw [List.pairwise_cons] at hs
    unfold scan
    by_cases hc : thr < p t ∧ t < ct
    · rw [if_pos hc]
      refine ⟨Or.inr ⟨List.mem_cons_self, hc.2, hc.1⟩, ?_⟩
      intro t' ht' hlt
      rcases List.mem_cons.1 ht' with rfl | h
      · exact absurd hlt (lt_irrefl _)
      · exact absurd (lt_trans hlt (hs.1 t' h)) (lt_irrefl _)
    · rw [if_neg hc]
      have e : (if absR (t - maxT) < 1 / 1000 ∧ t < ct then maxT else ct) = ct := by
        by_cases h : absR (t - maxT) < 1 / 1000 ∧ t < ct
        · rw [if_pos h]
          exact (H t List.mem_cons_self h.1 h.2).symm
        · rw [if_neg h]
      rw [e]
      obtain ⟨h1, h2⟩ := ih hs.2 fun t' ht' => H t' (List.mem_cons_of_mem _ ht')
      refine ⟨?_, ?_⟩
      · rcases h1 with h1 | ⟨h1, h1', h1''⟩
        · exact Or.inl h1
        · exact Or.inr ⟨List.mem_cons_of_mem _ h1, h1', h1''⟩
      · intro t' ht' hlt
        rcases List.mem_cons.1 ht' with rfl | h
        · have : scan maxT p thr ts ct ≤ ct := by
            rcases h1 with h1 | ⟨_, h1, _⟩
            · exact le_of_eq h1
            · exact le_of_lt h1
          exact le_of_not_gt fun hp => hc ⟨hp, lt_of_lt_of_le hlt this⟩
        · exact h2 t' h hlt

/-- The values that the member `critical_temperature` takes. -/
def CtInv (maxT : Rat) (n : Nat) (ct : Rat) : Prop := ct = maxT ∨ ct = 0 ∨ (ct ∈ temps n ∧ ct ≤ maxT)

theorem CtInv.near {maxT : Rat} {n : Nat} {ct : Rat} (h : CtInv maxT n ct) :
    ∀ t ∈ temps n, absR (t - maxT) < 1 / 1000 → t < ct → ct = maxT := by
  intro t ht hn hlt
  obtain ⟨i, _, rfl⟩ := (mem_temps n t).1 ht
  rcases h with h | h | ⟨h, hle⟩
  · exact h
  · have : (0 : Rat) ≤ i := Nat.cast_nonneg i
    subst h
    linarith
  · exfalso
    obtain ⟨j, _, rfl⟩ := (mem_temps n ct).1 h
    have h1 : ((i : Rat)) < j := by linarith
    have h2 : i + 1 ≤ j := by exact_mod_cast h1
    have h3 : ((i : Rat)) + 1 ≤ j := by exact_mod_cast h2
    unfold absR at hn
    split_ifs at hn <;> linarith

theorem scan_temps (maxT : Rat) (p : Rat → ℝ) (thr : ℝ) (n : Nat) (ct : Rat) (h : CtInv maxT n ct) :
    (scan maxT p thr (temps n) ct = ct ∨
        (scan maxT p thr (temps n) ct ∈ temps n ∧ scan maxT p thr (temps n) ct < ct ∧ thr < p (scan maxT p thr (temps n) ct))) ∧
      ∀ t ∈ temps n, t < scan maxT p thr (temps n) ct → p t ≤ thr :=
  scan_spec maxT p thr (temps n) (temps_sorted n) ct h.near

theorem CtInv.scan {maxT : Rat} (hm : 0 ≤ maxT) {n : Nat} {ct : Rat} (h : CtInv maxT n ct) (p : Rat → ℝ) (thr : ℝ) :
    CtInv maxT n (scan maxT p thr (temps n) ct) := by
  rcases (scan_temps maxT p thr n ct h).1 with e | ⟨h1, h2, _⟩
  · rw [e]; exact h
  · refine Or.inr (Or.inr ⟨h1, ?_⟩)
    rcases h with rfl | rfl | ⟨_, h⟩ <;> linarith

theorem scan_zero (maxT : Rat) (p : Rat → ℝ) (thr : ℝ) (n : Nat) : scan maxT p thr (temps n) 0 = 0 := by
  rcases (scan_temps maxT p thr n 0 (Or.inr (Or.inl rfl))).1 with e | ⟨h1, h2, _⟩
  · exact e
  · obtain ⟨i, _, e⟩ := (mem_temps n _).1 h1
    have : (0 : Rat) ≤ i := Nat.cast_nonneg i
    rw [e] at h2
    linarith

end Verif.SidbAnalysis
