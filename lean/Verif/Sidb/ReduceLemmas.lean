import Verif.Sidb.StepLemmas
import Verif.Sidb.ForcedProps
import Mathlib.Data.List.Nodup
import Mathlib.Algebra.BigOperators.Group.List.Basic

/-! Helper lemmas: erasing SiDBs that are necessarily negative. -/
namespace Verif.Sidb

theorem sum_range_list (n : Nat) (f : Nat → Rat) : ∑ j ∈ Finset.range n, f j = ((List.range n).map f).sum := by
  induction n with
  | zero => rfl
  | succ n ih => rw [Finset.sum_range_succ, ih, List.range_succ, List.map_append, List.sum_append]; simp

theorem sum_filter_split (p : Nat → Bool) (l : List Nat) (f : Nat → Rat) :
    (l.map f).sum = ((l.filter p).map f).sum + ((l.filter fun i => !p i).map f).sum := by
  induction l with
  | nil => simp
  | cons a l ih =>
    cases h : p a <;> simp [h, ih] <;> ring

theorem sum_getD (l : List Nat) (f : Nat → Rat) : ∑ b ∈ Finset.range l.length, f (l.getD b 0) = (l.map f).sum := by
  rw [sum_range_list]
  congr 1
  refine List.ext_getElem (by simp) fun i h1 h2 => ?_
  simp at h1 h2
  simp [h1]

theorem foldl_add (l : List Nat) (f : Nat → Rat) (x : Rat) : l.foldl (fun x p => x + f p) x = x + (l.map f).sum := by
  induction l generalizing x with
  | nil => simp
  | cons a l ih => rw [List.foldl_cons, ih, List.map_cons, List.sum_cons]; ring

/-- A list of SiDBs to be erased, in increasing order. -/
def Erasable (E : Env) (pre : List Nat) : Prop := ∃ p : Nat → Bool, pre = (List.range E.n).filter p

theorem remaining_eq (E : Env) {p : Nat → Bool} {pre : List Nat} (h : pre = (List.range E.n).filter p) :
    remaining E pre = (List.range E.n).filter fun i => !p i := by
  unfold remaining
  refine List.filter_congr fun i hi => ?_
  subst h
  have := List.mem_range.1 hi
  cases hp : p i <;> simp [hp, this]

theorem mem_remaining (E : Env) (pre : List Nat) (i : Nat) : i ∈ remaining E pre ↔ i < E.n ∧ i ∉ pre := by
  simp [remaining]

theorem nodup_remaining (E : Env) (pre : List Nat) : (remaining E pre).Nodup := List.Nodup.filter _ List.nodup_range

/-- The distribution over all SiDBs. -/
def embedF (E : Env) (pre : List Nat) (c : Nat → Charge) : Nat → Charge :=
  fun i => if i ∈ pre then .neg else c ((remaining E pre).idxOf i)

theorem getD_mem {l : List Nat} {a : Nat} (h : a < l.length) : l.getD a 0 ∈ l := by
  simp [h]

theorem embedF_rem (E : Env) (pre : List Nat) (c : Nat → Charge) {a : Nat} (ha : a < (remaining E pre).length) :
    embedF E pre c ((remaining E pre).getD a 0) = c a := by
  have hm := (mem_remaining E pre _).1 (getD_mem ha)
  unfold embedF
  rw [if_neg hm.2]
  congr 1
  rw [List.getD_eq_getElem?_getD, List.getElem?_eq_getElem ha, Option.getD_some]
  exact (nodup_remaining E pre).idxOf_getElem a ha

theorem rem_surj (E : Env) (pre : List Nat) {i : Nat} (hi : i < E.n) (hp : i ∉ pre) :
    ∃ a < (remaining E pre).length, (remaining E pre).getD a 0 = i := by
  have := (mem_remaining E pre i).2 ⟨hi, hp⟩
  refine ⟨(remaining E pre).idxOf i, List.idxOf_lt_length_of_mem this, ?_⟩
  rw [List.getD_eq_getElem?_getD, List.getElem?_eq_getElem (List.idxOf_lt_length_of_mem this)]
  simp

theorem reduced_potential (E : Env) (pre : List Nat) (hp : Erasable E pre) (c : Nat → Charge) (a : Nat) :
    potential (reduced E pre) c a = potential E (embedF E pre c) ((remaining E pre).getD a 0) := by
  obtain ⟨p, rfl⟩ := hp
  generalize hpre : (List.range E.n).filter p = pre
  have hrem := remaining_eq E hpre.symm
  unfold potential
  simp only [reduced]
  rw [foldl_add pre (fun q => E.pot ((remaining E pre).getD a 0) q * (-1))]
  rw [sum_range_list E.n, sum_filter_split p (List.range E.n), hpre, ← hrem, add_assoc]
  congr 1
  congr 1
  · congr 1
    refine List.map_congr_left fun q hq => ?_
    simp [embedF, hq, Charge.sign]
  · rw [← sum_getD]
    refine Finset.sum_congr rfl fun b hb => ?_
    rw [embedF_rem E pre c (Finset.mem_range.1 hb)]

theorem reduced_physical (E : Env) (P : E.Physical) (pre : List Nat) : (reduced E pre).Physical where
  symm _ _ := P.symm _ _
  diag _ := P.diag _
  nonneg _ _ := P.nonneg _ _
  mu := P.mu
  eps := P.eps

/-- The list of SiDBs that are necessarily negative. -/
theorem detection_erasable (E : Env) (s : Cds) : Erasable E (negativeDetection E s) := ⟨_, rfl⟩

theorem populated_reduced (E : Env) (pre : List Nat) (hp : Erasable E pre) (c : Nat → Charge) (a : Nat)
    (ha : a < (remaining E pre).length) :
    Populated (reduced E pre) c a ↔ Populated E (embedF E pre c) ((remaining E pre).getD a 0) := by
  unfold Populated
  rw [reduced_potential E pre hp c a, embedF_rem E pre c ha]
  rfl

theorem noHop_reduced (E : Env) (pre : List Nat) (hp : Erasable E pre) (c : Nat → Charge) (a b : Nat)
    (ha : a < (remaining E pre).length) (hb : b < (remaining E pre).length) :
    NoHop (reduced E pre) c a b ↔ NoHop E (embedF E pre c) ((remaining E pre).getD a 0) ((remaining E pre).getD b 0) := by
  unfold NoHop
  rw [reduced_potential E pre hp c a, reduced_potential E pre hp c b, embedF_rem E pre c ha, embedF_rem E pre c hb]
  rfl

theorem valid_to_reduced (E : Env) (pre : List Nat) (hp : Erasable E pre) (c : Nat → Charge) (h : Valid E (embedF E pre c)) :
    Valid (reduced E pre) c := by
  have hlt : ∀ a < (remaining E pre).length, (remaining E pre).getD a 0 < E.n := fun a ha =>
    ((mem_remaining E pre _).1 (getD_mem ha)).1
  exact ⟨fun a ha => (populated_reduced E pre hp c a ha).2 (h.1 _ (hlt a ha)),
    fun a ha b hb => (noHop_reduced E pre hp c a b ha hb).2 (h.2 _ (hlt a ha) _ (hlt b hb))⟩

/-- The potential is at least that of the all-negative distribution plus what a less negative SiDB adds. -/
theorem potential_ge (E : Env) (P : E.Physical) (c : Nat → Charge) (i j : Nat) (hj : j < E.n) (hne : c j ≠ .neg) :
    potential E (fun _ => .neg) i + E.pot i j ≤ potential E c i := by
  have h1 := potential_setAt E (fun _ => .neg) j .neu hj i
  have h2 := potential_mono E P (c := setAt (fun _ => .neg) j .neu) (c' := c) (fun k _ => by
    simp only [setAt]
    split
    · rename_i h; subst h; cases hc : c k <;> simp_all [Charge.sign]
    · exact sign_neg_le _) i
  rw [h1] at h2
  have : ((Charge.neu.sign - Charge.neg.sign : Int) : Rat) = 1 := by simp [Charge.sign]
  rw [this] at h2
  linarith

theorem valid_from_reduced (E : Env) (P : E.Physical) (s : Cds) (hs : ∀ i < E.n, s.intPot i = potential E (fun _ => .neg) i)
    (hext : ∀ i < E.n, ∀ j < E.n, E.ext i = E.ext j) (c : Nat → Charge)
    (h : Valid (reduced E (negativeDetection E s)) c) : Valid E (embedF E (negativeDetection E s) c) := by
  have hp := detection_erasable E s
  generalize hpre : negativeDetection E s = pre at *
  have hdet : ∀ i ∈ pre, i < E.n ∧ -potential E (fun _ => .neg) i < E.ext i - E.muMinus - E.eps := by
    intro i hi
    rw [← hpre] at hi
    obtain ⟨h1, h2⟩ := (mem_negativeDetection E s i).1 hi
    rw [hs i h1] at h2
    exact ⟨h1, by linarith⟩
  have hneg : ∀ i ∈ pre, embedF E pre c i = .neg := fun i hi => by simp [embedF, hi]
  have heps := P.eps
  have hmu := P.mu
  refine ⟨fun i hi => ?_, fun i hi j hj hlt => ?_⟩
  · by_cases hip : i ∈ pre
    · have hm := potential_mono E P (c := fun _ => .neg) (c' := embedF E pre c) (fun j _ => sign_neg_le _) i
      have := (hdet i hip).2
      refine ⟨fun _ => by linarith, fun h => ?_, fun h => ?_⟩
      · rw [hneg i hip] at h; exact absurd h (by decide)
      · rw [hneg i hip] at h; exact absurd h (by decide)
    · obtain ⟨a, ha, rfl⟩ := rem_surj E pre hi hip
      exact (populated_reduced E pre hp c a ha).1 (h.1 a ha)
  · by_cases hjp : j ∈ pre
    · rw [hneg j hjp] at hlt
      have := sign_neg_le (embedF E pre c i)
      omega
    · obtain ⟨b, hb, rfl⟩ := rem_surj E pre hj hjp
      by_cases hip : i ∈ pre
      · have hne : embedF E pre c ((remaining E pre).getD b 0) ≠ .neg := by
          intro e
          rw [e, hneg i hip] at hlt
          omega
        have h1 := potential_ge E P (embedF E pre c) i _ hj hne
        have h2 := (hdet i hip).2
        have h3 := hext i hi _ hj
        obtain ⟨_, p2, p3⟩ := (populated_reduced E pre hp c b hb).1 (h.1 b hb)
        have h4 : -potential E (embedF E pre c) ((remaining E pre).getD b 0) >
            E.ext ((remaining E pre).getD b 0) - E.muMinus - E.eps := by
          cases hc : embedF E pre c ((remaining E pre).getD b 0)
          · exact absurd hc hne
          · exact (p2 hc).1
          · have := p3 hc; linarith
        rw [h3] at h2 ⊢
        linarith
      · obtain ⟨a, ha, rfl⟩ := rem_surj E pre hi hip
        exact (noHop_reduced E pre hp c a b ha hb).1 (h.2 a ha b hb) hlt

end Verif.Sidb
